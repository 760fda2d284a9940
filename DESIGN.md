# Formal model of datafold in Lean 4 — design

## What is here

* `properties.jsonl` — the semantic properties (C01, C02, ...), in API terms.
* `lean/Verif/<Area>/<Topic>.lean` — model of the code, definition by definition, each citing file and lines in `/repo`.
* `lean/Verif/<Area>/*Spec.lean` — small independent specification vocabulary, where a statement needs one (otherwise the
  vocabulary is Lean's or Mathlib's own: lists, matrices, derivatives).
* `lean/Verif/<Area>/*Lemmas.lean` — helper lemmas.
* `lean/Verif/<Area>/*Props.lean` — the property theorems `Cnn_...`, and beside them `example`s with concrete cases that meet
  the hypotheses.
* `MANIFEST.json` — property → theorem names, status.
* `seeded/LOG.jsonl` — experiments with deliberately wrong models.
* `AXIOMS.md` — the axioms every theorem of the manifest depends on (output of `#print axioms`).

Areas: `Tsc` (time series collections, `pcfold/timeseries`), `Transform` (`dynfold/transform.py`), `Dyn` (`dynfold/dynsystem.py`,
`dynfold/base.py`), `Dmd` (`dynfold/dmd.py`), `Edmd` (`appfold/edmd.py`), `Mpc` (`appfold/mpc.py`), `Kernel` (`pcfold/kernels.py`,
`eigsolver.py`, `estimators.py`, `dynfold/dmap.py`, `outofsample.py`, `jsf.py`), `Dist` (`pcfold/distance.py`, `pointcloud.py`), `Utils`
(`utils`, early stopping of `dynfold/dictlearning.py`), `Lin` (least squares as used by all of them), `Np` (numpy list functions).

## Trusted base

* Lean 4.33.0 kernel (the audit replays every constant).
* Axioms: at most `propext`, `Classical.choice`, `Quot.sound` (Lean's/Mathlib's standard axioms), per theorem in `AXIOMS.md`. No own
  axioms, no `sorry`, no `native_decide`, no `bv_decide`.
* The reading of the Python source: nothing is run; each definition cites the code it models.
* Library behaviour (numpy, pandas, scipy, scikit-learn, findiff) enters as the documented behaviour of the single function used
  (e.g. `np.unique` = sorted without duplicates, `sort_index` = lexicographic sort, `KFold`, `lstsq` = a minimiser of the least squares
  problem, eigen-solvers return eigenpairs, the QP solver returns a minimiser). It is a parameter or a relation in the
  theorem where it is not modelled executably; the definition comments say so.
* Floating point: numeric values are modelled exactly (ℚ/ℝ/ℂ/any field). Rounding, NaN propagation and overflow are *not*
  modelled, except where a decision of the code is about them (then NaN is `none` or an exception value).

## Modelling conventions

* A time series collection is a list of rows `(id, time, values)` in index order plus the column labels; all methods are
  functions of this value. In-place mutation is modelled as a returned second value (the argument afterwards).
* Exceptions are values (`Except Err α`) with one constructor per kind of rejection.
* Estimators with a history (fit, partial_fit, refit, cached values) are state machines; theorems about them quantify over all
  histories. Python closures are functions of the cell of the captured variable.
* Loops whose termination is not obvious take fuel; termination is a theorem of its own (C54, C109).
* A property that the code violates is kept in `properties.jsonl` as the user relies on it; we prove its *negation* for the
  model (`..._violated`), and the strongest true part as `..._partial`.

## Plan and result per property

"False" in the last column means: the full statement of `properties.jsonl` does not hold for the code; the negation is proved with a concrete witness or for all inputs (`..._violated`), and the strongest true part is kept (`..._partial` or without suffix when it is a complete statement of its own).

| Property | Modelled code | Lean modules | How it is proved | Status | Remarks |
|---|---|---|---|---|---|
| C01 A TSCDataFrame accepts exactly the valid time series collections | `TSCDataFrame._validate_index`, `TSCDataFrame._validate_columns`, `TSCDataFrame._validate` | `Tsc/IndexProps` | equivalence of the code's Boolean checks with a declarative predicate, induction on rows | partial | Accepted iff valid, for indices without NaN/NaT time values; the constructor accepts NaN float times (C01_index_violated). Columns and typed constructor: full equivalence. |
| C02 from_tensor stores every tensor slice under its own ID and nothing else | `TSCDataFrame.from_tensor` | `Tsc/CollProps`, `Tsc/OrientProps` | lookup of slice i; sort characterised by permutation and order | proved | sort_index(level=0) is the lexicographic sort |
| C03 shift_matrices pairs exactly consecutive samples of the same series | `TSCAccessor.shift_matrices` | `Tsc/ShiftProps` | list induction over the four branches of index deletion; witness for unsorted IDs | partial | Holds if IDs ascend in the index or all series have equal length; violated for unsorted IDs with unequal lengths (C03_violated). The constant-delta check is separate (C11). |
| C04 from_shift_matrices and shift_matrices are inverse | `TSCDataFrame.from_shift_matrices`, `TSCAccessor.shift_matrices` | `Tsc/ShiftProps`, `Tsc/OrientProps` | list induction; extensionality of arrays with shapes; equivalence with real entries | partial | Proved for real arrays of every shape in both orientations. The imaginary parts of complex arrays are discarded; the name of the orientation may be written in capitals only when a collection is made, not when it is read. |
| C05 insert_ts adds one new series under a fresh ID and changes nothing else | `TSCDataFrame.insert_ts` | `Tsc/CollProps` | invariant over all histories of insertions | proved | any history of insertions |
| C06 initial_states / final_states return the first / last n samples of every series | `TSCDataFrame.initial_states`, `TSCDataFrame.final_states` | `Tsc/StatesProps` | per-series list lemmas | proved |  |
| C07 drop_last_n_samples removes exactly what final_states returns | `TSCAccessor.drop_last_n_samples`, `TSCDataFrame.final_states` | `Tsc/StatesProps`, `Tsc/OrientProps` | per-series list lemmas; complement of a sublist with unique keys | partial | Proved for all non-negative n. Negative n are accepted and drop_last_n_samples(-k) keeps the first k samples of each series. |
| C08 assign_ids_sequential is an order preserving renumbering | `TSCAccessor.assign_ids_sequential` | `Tsc/CollProps` | order isomorphism of sorted unique IDs | proved |  |
| C09 n_timesteps, ids, n_timeseries and time_values describe the stored rows | `TSCDataFrame.ids`, `TSCDataFrame.n_timesteps`, `TSCDataFrame.time_values` | `Tsc/CollProps` | counting lemmas | proved |  |
| C10 is_same_time_values is true exactly if all series have identical time values | `TSCDataFrame.is_same_time_values` | `Tsc/CollProps` | counting lemmas | proved |  |
| C11 delta_time reports the sampling interval if and only if it is constant | `TSCDataFrame.delta_time`, `TSCDataFrame.is_const_delta_time` | `Tsc/DeltaProps` | counting lemmas; negation for the datetime branch | partial | Regular collections of any interval; integer time with moderate steps: full equivalence. Violated for datetimes, for huge steps (tolerance) and for unsorted IDs of equal length. |
| C12 normalize_time maps a constantly sampled collection to steps of one starting at zero | `TSCAccessor.normalize_time` | `Tsc/DeltaProps`, `Tsc/OrientProps` | arithmetic of constant intervals | partial | Integer time. Constantly sampled collections: all intervals. Rejection of others and is_normalized_time: intervals below 3e11; above, the tolerance of C11 accepts different intervals as equal. |
| C13 iter_timevalue_window yields every window of the given size and offset | `TSCAccessor.iter_timevalue_window` | `Tsc/WindowProps` | loop invariant for the start/end pointers | proved | integer/datetime time; the global variant for ascending IDs (pandas' selection order) |
| C14 TSCKfoldSeries never splits a series and every series is tested exactly once | `TSCKfoldSeries.split` | `Tsc/FoldProps` | arithmetic of the reshaped index array, permutations | proved | with and without shuffling (any order of the series) |
| C15 TSCKFoldTime splits all series at the same time values | `TSCKFoldTime.split` | `Tsc/FoldProps` | arithmetic of the reshaped index array | proved |  |
| C16 assign_ids_train_test produces gap free series inside one fold | `TSCAccessor.assign_ids_train_test` | `Tsc/TrainTestProps` | induction over the change detection | proved |  |
| C17 assign_ids_const_delta splits irregular series into constantly sampled pieces | `TSCAccessor.assign_ids_const_delta` | `Tsc/ConstDeltaProps` | induction over the change detection | proved | integer/datetime time values, exact arithmetic |
| C18 Takens embedding row i holds the current sample and the samples at the given delays | `TSCTakensEmbedding` | `Transform/TakensProps` | index characterisation of the sliding loop | proved | exact arithmetic; integer and datetime time values |
| C19 inverse_transform of the Takens embedding returns the original samples | `TSCTakensEmbedding.inverse_transform` | `Transform/TakensProps` | round trip by index characterisation | proved |  |
| C20 TSCApplyLambdas labels every column with the function that computed it | `TSCApplyLambdas.transform`, `TSCApplyLambdas.get_feature_names_out` | `Transform/ColumnsProps` | list induction over lambdas | proved | lambdas keep the number of samples; the order advertised by get_feature_names_out is C65 |
| C21 The Takens delays cover the documented window | `TSCTakensEmbedding._setup_delay_indices_array` | `Transform/TakensProps` | arithmetic of delays | proved |  |
| C22 Feature projection keeps the requested order | `projection_matrix_from_feature_names` | `Utils/GeneralProps` | matrix entries; witness | partial | the order of the selection is ignored: violated for re-ordered selections |
| C23 sort_eigenpairs permutes eigenvalues and eigenvectors together | `sort_eigenpairs` | `Utils/GeneralProps` | permutation and order of the sorted list; witness | partial | sorted by complex value, not magnitude; agrees for non-negative real eigenvalues only |
| C24 is_integer decides integrality for every number | `is_integer` | `Utils/GeneralProps` | case analysis on the kinds of numbers | partial | floats of Python in (-1,1), inf and nan raise, the zero of numpy is not recognised |
| C25 The configured system type and mode select the matching evolution rule | `LinearDynamicalSystem`, `SystemSolveStrategy.select_strategy` | `Dyn/StrategyProps` | exhaustive case analysis | partial | violated for controlled differential systems in matrix mode: the control input is ignored |
| C26 Flow map evolution obeys the semigroup law | `LinearDynamicalSystem.evolve_system` | `Dyn/LinearProps`, `Dyn/SpectralProps` | induction on steps, matrix exponential | proved | time values at multiples of the sampling rate (fractional powers not modelled); differential systems at all real times |
| C27 Spectral and matrix mode predict the same states | `LinearDynamicalSystem`, `LinearDynamicalSystem.compute_spectral_system_states` | `Dyn/SpectralProps` | diagonalisation, induction on steps | proved | exact complex arithmetic; spectral states by left eigenvectors or least squares |
| C28 Controlled flow map evolution follows x_{n+1} = A x_n + B u_n | `LinearDynamicalSystem` | `Dyn/LinearProps`, `Dyn/SpectralProps` | induction on steps | proved | series of U in ascending ID order (see C72) |
| C29 Prediction time values are accepted exactly if they are valid | `TSCPredictMixin._validate_time_values_format`, `TSCPredictMixin._validate_and_set_time_values_predict` | `Dyn/TimeValuesProps` | equivalence of checks; witnesses for wrap-around | partial | violated for unsigned integers (wrap around) and datetimes more than 292 years apart; the prepended reference is C74 |
| C30 DMD recovers the system matrix from noise free snapshots | `DMDStandard` | `Dmd/StandardProps` | normal equations | partial | Full rank case in exact arithmetic: every minimiser recovers the system if the IDs ascend or all series are equally long. Otherwise snapshots of different series are paired and the system is not recovered. The reduced rank variant is C78. |
| C31 DMDControl recovers system and control matrices from noise free data | `DMDControl` | `Dmd/ControlProps` | normal equations of the stacked system | partial | Exact arithmetic; a fit is any least squares solution. True if the IDs ascend or all series are equally long; otherwise snapshots of different series are paired (see C03) and the matrices are wrong. |
| C32 OnlineDMD equals weighted batch DMD at every time | `OnlineDMD` | `Dmd/OnlineProps` | invariant over all histories: inverse covariance and cross term, Sherman–Morrison; characterisation of the default start | partial | exact arithmetic. Holds for models started with a batch whose states span the space; violated by the default start (random matrix with a small penalty, what it minimises is proved) and by rank deficient batches (never updated again) |
| C33 StreamingDMD keeps the dominant subspace within max_rank | `StreamingDMD` | `Dmd/StreamingProps` | rank invariant over histories; witness for the order of eigenvalues | partial | the rank bound holds; violated: the compression keeps the directions with the smallest eigenvalues. Without compression (tolerance 0) streaming equals the projected batch method |
| C34 EDMD.predict(qois) labels each column with its own quantity | `EDMD._predict_dict_ic`, `projection_matrix_from_feature_names` | `Edmd/QoisProps` | list lemmas; equivalence with order of selection | partial | matrix mode is right for all selections; spectral mode exactly for selections in the order of the features, other orders are mislabelled |
| C35 EDMD.reconstruct returns each prediction at the ID and time it was computed for | `EDMD._reconstruct`, `InitialCondition.iter_reconstruct_ic` | `Edmd/ReconstructProps` | block lemmas; witness | partial | holds for ascending IDs and series that do not get shorter; violated otherwise: predictions are written to the wrong series |
| C36 EDMD.partial_fit honours include_id_state | `EDMD.partial_fit`, `EDMD._validate_dictionary` | `Edmd/QoisProps` | case analysis | partial | the exact decision is proved; violated with include_id_state=False and dictionaries that hold the states |
| C37 Sorting Koopman triplets does not change predictions | `EDMD._sort_koopman_triplets` | `Edmd/TripletProps` | permutation invariance of sums | proved |  |
| C38 KMPC predicts the stacked states of the lifted controlled system | `KMPC._create_evolution_matrices` | `Mpc/KmpcProps` | induction on the horizon | proved | exact arithmetic |
| C39 The quadratic program of KMPC is the documented tracking problem | `KMPC._setup_optimizer`, `KMPC.control_sequence_horizon` | `Mpc/KmpcProps` | quadratic expansion | partial | exact arithmetic; the QP solver is a relation (returns a minimiser if there is one). Violated for a terminal cost of zero, which is replaced by the running cost |
| C40 The QP constraints of KMPC are exactly the state and input bounds | `KMPC._setup_optimizer` | `Mpc/KmpcProps` | equivalence of block inequalities with bounds | partial | holds for bounds given as (min, max); with the documented order (max, min) nothing is feasible |
| C41 AffineKgMPC uses the gradient of its own cost | `AffineKgMPC._dcost_dx`, `AffineKgMPC._dcost_du`, `AffineKgMPC.cost` | `Mpc/ControlProps` | derivative of the cost | partial | the gradients are right exactly for weights 0 and 1 |
| C42 The diffusion kernel is row stochastic | `_stochastic_kernel_matrix`, `DmapKernelFixed._normalize` | `Kernel/NormalizeProps` | row sums | proved | exact arithmetic |
| C43 The symmetric conjugate has the eigenpairs of the stochastic kernel | `_conjugate_stochastic_kernel_matrix`, `_DmapKernelAlgorithms` | `Kernel/NormalizeProps` | similarity of matrices | proved | exact arithmetic |
| C44 Diffusion maps embed training points out-of-sample as in fit_transform | `DiffusionMaps.transform`, `DiffusionMaps.fit_transform`, `DmapKernelFixed` | `Kernel/DmapProps`, `Kernel/RadialProps` | matrix algebra; equality of outcomes including exceptions | partial | exact arithmetic; transform and fit_transform always have the same outcome; violated: with a time exponent and target coordinates both raise or silently scale with the wrong eigenvalues |
| C45 The Gaussian kernel is a similarity | `GaussianKernel` | `Kernel/RadialProps` | monotonicity of exp; positive definiteness via Schur products / feature maps | proved | exact arithmetic; also positive semi-definite |
| C46 estimate_scale yields a Gaussian kernel below the tolerance at the cut-off | `estimate_scale`, `GaussianKernel` | `Kernel/RadialProps` | real logarithms | partial | violated for all tolerances and cut-offs: the kernel is sqrt(tol) at the cut-off |
| C47 Sparse distance matrices keep exactly the distances below the cut-off | `DistanceAlgorithm._dense2csr_matrix` | `Dist/Props` | partial function of stored entries | proved | exact arithmetic |
| C48 All distance backends return the same neighbours | `BruteForceDist`, `ScipyKdTreeDist`, `SklearnBalltreeDist` | `Dist/Props` | equivalence of neighbour predicates | partial | violated exactly if a distance equals the cut-off |
| C49 A distance algorithm's result depends only on its arguments | `ScipyKdTreeDist`, `SklearnBalltreeDist` | `Dist/Props` | state machine with cached tree | partial | violated: component-wise calls reuse the points of an earlier call |
| C50 kmin inserts true distances | `DistanceAlgorithm._ensure_kmin_nearest_neighbor` | `Dist/Props` | direct; witness | partial | true for the Euclidean metric; violated for squared distances; exception without cut-off |
| C51 PCManifold applies the distance settings given by the user | `PCManifold.__new__` | `Dist/BackendProps` | attribute record | partial | violated for every argument: default settings are used; only the setter works |
| C52 pcm_remove_outlier keeps the points with at least kmin neighbours | `pcm_remove_outlier` | `Dist/CloudProps` | counting | partial | violated: a point counts as its own neighbour with a cut-off; duplicates are not counted without |
| C53 pcm_subsample with min_added_per_iteration=0 visits the entire point cloud | `pcm_subsample` | `Dist/CloudProps` | loop with fuel; witness | partial | violated: the loop stops at a block that adds nothing; exception without cut-off and for blocks of one point |
| C54 Laplacian pyramids reach the requested residual | `LaplacianPyramidsInterpolator` | `Kernel/PyramidProps` | loop invariant: prediction + residual = target | partial | full for tolerances >= 1e-15; violated below because of the hard-coded threshold |
| C55 Geometric harmonics reproduce target functions in the span of the eigenvectors | `GeometricHarmonicsInterpolator` | `Kernel/HarmonicsProps` | matrix algebra | proved | exact arithmetic; eigensolver as relation |
| C56 Roseland fit_transform and transform agree on the training data | `Roseland.fit_transform`, `Roseland.transform` | `Kernel/RoselandProps` | matrix algebra; witness | partial | agreement for time exponent zero; violated otherwise because fit_transform does not scale with the singular values |
| C57 LocalRegressionSelection always selects the first non-trivial eigenvector | `LocalRegressionSelection._set_indices` | `Kernel/SelectionProps` | list of selected indices | partial | strategy dim leaves out the first eigenvector if enough later residuals exceed one |
| C58 Jointly smooth functions are orthonormal | `JointlySmoothFunctions._compute_jointly_smooth_vectors` | `Kernel/JsfProps` | orthonormal columns of products | proved | two splits; SVD as a relation |
| C59 EarlyStopping stops after `patience` epochs without improvement | `EarlyStopping` | `Utils/EarlyStoppingProps` | invariant over the history of losses | proved |  |
| C60 Every control channel drives the simulated system | `ControllableODE.predict` | `Utils/SystemsProps` | closures as functions of the loop variable's cell | partial | Holds for one channel and for one-step predictions; with several channels and several steps every channel receives the last column (late binding of the loop variable), proved for all inputs and with a witness. The ODE solver is not modelled. |
| C61 DCMotor.predict_vectorize is the classical Runge-Kutta scheme | `DCMotor._runge_kutta` | `Utils/SystemsProps` | expansion of the step in the step size | partial | False: the fourth stage is evaluated at k1 instead of k3. Proved: exactly when the step is still the classical one, its expansion for linear systems (correct to second order only), and a witness for the DC motor. |
| C62 check_tsc accepts exactly the collections with the requested properties | `TSCAccessor.check_tsc` | `Tsc/CheckProps` | equivalence of check list with specification | partial | Integer time values with intervals below 3e11 and required delta below 1e12; false for datetimes (different intervals accepted as constant) and with an AttributeError for datetimes with another delta. |
| C63 Error metrics vanish exactly for a perfect prediction | `TSCMetric`, `TSCScoring` | `Tsc/MetricProps`, `Tsc/MedianProps` | sum of squares and absolute values vanish iff entries do | partial | All metrics, modes and scalings but medae and l2_normalize, where the property is false; a median error of zero means that at least half of the errors vanish. |
| C64 random_subsample returns distinct existing rows | `random_subsample` | `Utils/GeneralProps` | permutation prefix | proved |  |
| C65 get_feature_names_out describes the columns that transform returns | `TSCApplyLambdas`, `TSCFiniteDifference`, `TSCIdentity`, `TSCMovingAverage`, `TSCFeatureSelect`, `TSCTakensEmbedding` | `Transform/ColumnsProps` | list lemmas, witnesses | partial | violated by TSCApplyLambdas, TSCFiniteDifference and TSCIdentity(include_const) with a feature named const |
| C66 TSCIdentity can be inverted | `TSCIdentity.transform`, `TSCIdentity.inverse_transform` | `Transform/ColumnsProps` | round trip, witness | partial | violated with rename_features=True |
| C67 Fitting again forgets the previous fit | `TSCTransformerMixin._setup_feature_attrs_fit`, `TSCTransformerMixin._validate_feature_input` | `Transform/ColumnsProps` | state machine over fits | partial | the attributes of the first fit are kept |
| C68 fit and transform leave the caller's frame unchanged | `TSCTakensEmbedding._columns_to_type_str` | `Transform/ColumnsProps` | argument as second result | partial | integer labels of the argument become strings |
| C69 TSCMovingAverage averages within one series | `TSCMovingAverage.transform` | `Transform/MovingAverageProps` | window sums per series | proved | exact arithmetic |
| C70 Products with diagonal matrices | `mat_dot_diagmat`, `diagmat_dot_mat` | `Utils/GeneralProps` | entries | proved |  |
| C71 remove_numeric_noise_symmetric_matrix returns the symmetric part | `remove_numeric_noise_symmetric_matrix` | `Utils/GeneralProps` | entries of symmetric part | partial | sparse matrices with non-symmetric structure are wrong (noted in the code) |
| C72 Each initial condition is driven by the control input with its ID | `DMDBase._evolve_dmd_system`, `InitialCondition.validate_control` | `Dyn/LinearProps` | position of IDs; witness | partial | violated if the series inside U are not in ascending ID order |
| C73 A controlled prediction respects the requested time values | `SystemSolveStrategy.flowmap_matrix_controlled` | `Dyn/ControlTimeProps`, `Dyn/LinearProps` | independence of spacing, witness; regular time values from the closed form of the driven system | partial | Proved for time values spaced by the interval of the model (integer time, control series with ascending IDs and equal time values). Violated otherwise: the code ignores the spacing of the time values, only their number counts. |
| C74 Time values used by predict | `TSCPredictMixin._validate_and_set_time_values_predict` | `Dyn/TimeValuesProps` | list of time values | partial | violated for floating point time with an array of control inputs: one time value too many |
| C75 Left eigenvectors reconstruct the system matrix | `DMDStandard._compute_left_eigenvectors` | `Dyn/SpectralProps` | matrix inverse; witness | partial | violated for singular system matrices |
| C76 Control input may be given as an array | `DMDBase.predict`, `InitialCondition.from_array_control` | `Dyn/TimeValuesProps` | rejection for every array | partial | the code rejects every array; the negation is proved |
| C77 reconstruct computes every series once, from its own initial state at its own time values | `InitialCondition.iter_reconstruct_ic`, `DMDBase.reconstruct`, `TSCPredictMixin` | `Tsc/InitCondProps`, `Tsc/MixedDeltaProps` | induction over blocks | proved | series with a constant sampling interval; a single sample per initial condition or n samples. C77_mixed_partial: every series has its own interval (below 3e11, IDs in ascending order or series of different lengths, see C11). |
| C78 Reduced rank DMD | `DMDStandard._compute_reduced_system_matrix`, `DMDStandard._compute_spectral_components` | `Dmd/ReducedProps` | orthogonal projection, eigenvectors | proved | exact arithmetic; the singular value decomposition and the eigenbasis are given |
| C79 The residual filter keeps the components of an exactly linear system | `DMDStandard._remove_spectral_pollution` | `Dmd/ReducedProps` | residual vanishes iff eigenfunction; witness | partial | violated: the filter tests the modes instead of the coefficients of the eigenfunctions; correct for left eigenvectors (e.g. symmetric matrices) |
| C80 approx_generator gives the same states at the sampling times | `DMDStandard.fit` | `Dmd/GeneratorProps` | powers and exponentials of eigenvalues | partial | violated at the initial time if the flow map has an eigenvalue zero (nan) |
| C81 gDMDFull finds the generator | `gDMDFull._compute_koopman_generator` | `Dmd/GeneratorProps` | least squares | proved | for given time derivatives |
| C82 StreamingDMD uses every pair of consecutive samples | `StreamingDMD.partial_fit`, `StreamingDMD._separate_init_pairs` | `Dmd/StreamingProps` | history of batches | partial | violated if the first series of the first call has more than two samples: one pair is lost |
| C83 The EDMD inverse map returns the original states | `EDMD._attach_id_state`, `EDMD._compute_inverse_map` | `Edmd/QoisProps` | projection matrix entries; witness | partial | violated for dictionaries that hold the states in another order than the input |
| C84 EDMD is exact for closed dictionaries | `EDMD.fit`, `EDMD.predict` | `Edmd/ClosedProps` | induction on steps with a closed dictionary | partial | Exact arithmetic; point-wise dictionaries. True if the IDs ascend or all series are equally long; otherwise snapshots of different series are paired (see C03) and the model is wrong. |
| C85 shift_time_per_time_series moves every series to time zero | `TSCAccessor.shift_time_per_time_series` | `Edmd/ReconstructProps` | block lemmas; witness | partial | ascending IDs or equal lengths; violated otherwise |
| C86 reconstruct leaves the given collection unchanged | `EDMD._reconstruct` | `Edmd/ReconstructProps` | argument as second result, exceptions | partial | true if reconstruct returns; violated if a prediction raises |
| C87 KMPC steers the quantities of interest it was asked for | `KMPC._create_evolution_matrices` | `Mpc/ControlProps` | list positions | partial | right exactly if the selection is in the order of the features |
| C88 LQR feedback is optimal | `LQR._setup_optimizer`, `LQR.control_sequence` | `Mpc/ControlProps` | Riccati equation, completion of squares | partial | one input and a target at rest; violated (exception) for several inputs |
| C89 AffineKgMPC respects the documented input bounds | `AffineKgMPC.generate_control_signal` | `Mpc/ControlProps` | bounds | proved |  |
| C90 A point without neighbours has a zero row in the diffusion kernel | `_stochastic_kernel_matrix`, `DmapKernelFixed._normalize_sampling_density` | `Kernel/NormalizeProps` | row sums, equivalence for acceptance | partial | true for alpha = 0; violated for alpha > 0 |
| C91 Eigenvalues of the diffusion kernel are in [-1,1] | `DmapKernelFixed`, `DiffusionMaps.fit` | `Kernel/NormalizeProps`, `Kernel/RadialProps` | stochastic matrix bound | proved | real eigenvalues |
| C92 inverse_transform of the embedding approximates the training data | `DiffusionMaps.inverse_transform` | `Kernel/DmapProps` | least squares | partial | violated for time exponents other than zero |
| C93 A refitted DiffusionMaps uses the data of the last fit | `DiffusionMaps.inverse_transform`, `DiffusionMaps.fit` | `Kernel/DmapProps` | state machine | partial | violated: the coefficients of the first fit are kept |
| C94 set_target_coords accepts exactly valid selections | `DiffusionMaps.set_target_coords` | `Kernel/DmapProps` | equivalence of checks | proved |  |
| C95 A callable bandwidth is evaluated for the data of each evaluation | `GaussianKernel.evaluate` | `Kernel/RadialProps` | state machine | partial | violated: the first value replaces the callable |
| C96 Radial kernels have the documented shape | `MultiquadricKernel`, `InverseMultiquadricKernel`, `InverseQuadraticKernel`, `ThinplateKernel`, `CubicKernel`, `QuinticKernel` | `Kernel/RadialProps` | monotonicity, values | proved | exact arithmetic |
| C97 Geometric harmonics reproduce functions spanned by the eigenvectors | `GeometricHarmonicsInterpolator.predict` | `Kernel/HarmonicsProps` | orthonormality equivalence | partial | holds exactly if the eigenvectors are orthonormal |
| C98 Geometric harmonics predict one row per sample | `GeometricHarmonicsInterpolator.predict` | `Kernel/HarmonicsProps` | shapes | partial | squeezed if there is one sample or one target |
| C99 The score of geometric harmonics is the weighted root mean squared error | `GeometricHarmonicsInterpolator.score` | `Kernel/HarmonicsProps` | independence of weights | partial | sample weights are ignored |
| C100 Distance to the k-th nearest neighbour | `_kth_nearest_neighbor_dist` | `Kernel/NeighborProps` | counting characterisation of the k-th smallest value | proved |  |
| C101 The continuous nearest neighbour kernel is a proximity graph | `ContinuousNNKernel.evaluate` | `Kernel/NeighborProps` | symmetry, counting; witnesses | partial | violated for k_neighbor=1 and for k_neighbor equal to the number of points |
| C102 Roseland coordinates are eigenvectors of the landmark diffusion | `Roseland`, `RoselandKernel` | `Kernel/RoselandProps` | singular vectors of the landmark matrix | proved | exact arithmetic; svd as relation |
| C103 Roseland accepts alpha > 0 and normalises the sampling density | `RoselandKernel._normalize_sampling_density` | `Kernel/RoselandProps` | rejection for every alpha > 0 | partial | violated for every alpha > 0: the call raises |
| C104 Dependent eigenvectors have local regression residual zero | `LocalRegressionSelection._single_residual_local_regression` | `Kernel/SelectionProps` | local least squares is exact | proved | exact arithmetic; without subsampling |
| C105 k-nearest-neighbour matrices store the k nearest points | `SklearnKNN.__call__` | `Dist/Props` | counting characterisation; rejection for k=1 | partial | violated only for k=1 in the pair-wise case, which is rejected |
| C106 Every distance algorithm can be selected by name | `init_distance_algorithm`, `compute_distance_matrix` | `Dist/BackendProps` | case analysis | partial | violated for the nearest neighbour algorithm; options dropped by guess_optimal |
| C107 PCManifold.compute_distance_matrix follows its distance settings | `PCManifold.compute_distance_matrix` | `Dist/BackendProps` | attribute record | partial | only the cut-off with the default algorithm is used |
| C108 Point clouds do not share settings | `PCManifold.__array_finalize__`, `PCManifold.cut_off` | `Dist/BackendProps` | shared reference as state | partial | violated for slices |
| C109 Fitting Laplacian pyramids ends | `LaplacianPyramidsInterpolator.fit` | `Kernel/PyramidEnd` | termination measure: minimal distance and kernel bound; non-termination by invariants | partial | proved for pairwise distinct points, mu>1, no auto-adaptive mode; violated for coinciding points with different targets and in auto-adaptive mode for a constant target |
| C110 Auto-adaptive pyramids keep improving levels only | `LaplacianPyramidsInterpolator.fit` | `Kernel/PyramidEnd` | induction over levels | proved |  |
| C111 The first jointly smooth function is the smoothest | `JointlySmoothFunctions._compute_jointly_smooth_vectors` | `Kernel/JsfProps` | singular values | proved |  |
| C112 transform of the training data equals fit_transform for jointly smooth functions | `JointlySmoothFunctions.transform`, `JointlySmoothFunctions._nystrom` | `Kernel/JsfProps` | singular value identity; witness | partial | violated: factor (1+sigma)/2; rejected if fewer functions than requested |
| C113 Early stopping ends a diverging training | `EarlyStopping` | `Utils/EarlyStoppingProps` | history of losses | partial | violated for delta>0 and nan |
| C114 Vectorised simulation drives every time series with its own control | `DCMotor.predict_vectorize` | `Utils/SystemsProps` | induction over steps | proved | Exact integer time values; the step function is arbitrary. |
| C115 Required IDs and disjoint time values are checked exactly | `TSCAccessor.check_contain_required_ids`, `TSCAccessor.check_non_overlapping_timeseries` | `Tsc/CheckProps` | equivalence | proved |  |
| C116 Equal sampling of two collections | `TSCAccessor.check_equal_delta_time` | `Tsc/CheckProps`, `Tsc/MixedDeltaProps` | equivalence; witnesses | partial | Proved for require_const and integer time; reflexivity fails for degenerate series, and one order of the arguments raises a ValueError instead of the TSCException. |
| C117 Feature weights work with every metric | `TSCMetric._norm_metric`, `TSCMetric._rrmse_metric`, `TSCMetric._max_error` | `Tsc/MetricProps` | shapes; rejection | partial | False for l2, linf, rrmse with two or more features and for max. |
| C118 The relative root mean squared error is relative | `TSCMetric._rrmse_metric` | `Tsc/MetricProps` | quotient of sums | partial | False: the value for n samples is 1/sqrt(n), because a mean is divided by a sum. |
| C119 Shifting time leaves the given collection alone | `TSCAccessor.shift_time_by_delta` | `Tsc/TimeOpsProps` | argument as second result | partial | The returned collection is right; the given collection is changed too, whenever the shift is not zero. |
| C120 Expanding time values keeps every series | `TSCAccessor.expand_time_values` | `Tsc/TimeOpsProps` | block lemmas; witness | partial | False if the IDs are not sorted along the rows. |
| C121 feature_to_array labels rows correctly | `TSCDataFrame.feature_to_array` | `Tsc/TimeOpsProps` | block lemmas; witness | partial | The array is right; the labels are wrong if the IDs are not sorted along the rows. |
| C122 Filling with the last state extends the series | `TSCAccessor.fill_timeseries_with_last_state` | `Tsc/TimeOpsProps` | list append; witness | partial | Proved for a series with ID 0; false for every other ID. |
| C123 Constant sampled time values | `TSCDataFrame.const_sampled_time_values` | `Tsc/TimeOpsProps` | arithmetic progression; witness | partial | The grid is proved; it contains all time values if the series are aligned, not in general. |
| C124 Control input is paired with the following state | `TSCAccessor.augment_control_input` | `Tsc/TimeOpsProps` | pairing of shifted lists; rejection | partial | Proved if the first series does not have ID 1; every collection whose first ID is 1 is rejected. |
| C125 Collections from lists of frames | `TSCDataFrame.from_frame_list`, `TSCDataFrame.from_single_timeseries` | `Tsc/FramesProps` | list induction | proved | from_frame_list for frames and collections, from_single_timeseries. |
| C126 insert_ts does not change its argument | `TSCDataFrame.insert_ts` | `Tsc/FramesProps` | argument as second result; witness | partial | The returned collection is right; the inserted frame is changed, and a collection of several series is merged into one. |
| C127 Initial conditions are validated exactly | `InitialCondition.validate`, `InitialCondition.from_tsc`, `InitialCondition.from_array` | `Tsc/IcProps`, `Tsc/OrientProps` | equivalence of checks | partial | Integer time values with steps below 3e11; above, a different interval is accepted as the required one. |
| C128 Time derivatives are exact on polynomials | `TSCAccessor.time_derivative` | `Tsc/DerivativeProps` | moment equations of finite difference coefficients | partial | For integer time values, exact arithmetic, and coefficients that solve the linear system from which findiff computes them. Irregular series are rejected if the steps are below 3e11; above, series whose intervals differ by less than 3e-12 of their size are accepted and the derivative is wrong (tolerance of delta_time). |
| C129 Shifted derivatives contain no future samples | `TSCAccessor.time_derivative` | `Tsc/DerivativeProps` | index sets | proved |  |
| C130 Window cross validation tests on windows counted from the end and trains on the rest | `TSCWindowFoldTime.split`, `TSCWindowFoldTime._reversed_ids_and_indices_tsc`, `assign_ids_train_test` | `Tsc/WindowFoldProps` | loop invariant over windows; stretches of rows | partial | Proved for collections with ascending IDs along the index and splits without exception: folds = windows counted from the end, train rows = exactly the rows in long enough stretches outside the window; accepted input characterised without a minimum. The full claim is false: for other ID orders a window mixes series, and folds whose too short pieces differ in length raise instead of being skipped. |
| C131 Radial basis coefficients of the centers are mapped back to the centers | `TSCRadialBasis.fit`, `TSCRadialBasis.fit_transform`, `TSCRadialBasis.inverse_transform` | `Transform/RadialBasisProps` | state machine over fits; solver as relation | partial | fit_transform and centers proved for all inputs; round trip proved for histories without a fit after an inverse_transform; negation proved for a refit (stale matrix), for every normalised kernel and every solver. |
| C132 Polynomial features are all monomials, each once, labelled by their exponents | `TSCPolynomialFeatures.transform`, `TSCPolynomialFeatures.powers_`, `TSCPolynomialFeatures._non_id_state_mask` | `Transform/PolynomialProps` | bijection with exponent vectors | proved | scikit-learn's combinations, powers_ and transform are modelled by their documented result; the datafold parts (filtered powers_, mask, names) as coded. |
| C133 The estimated cut-off gives every sampled point the requested number of neighbours | `estimate_cutoff`, `_kth_nearest_neighbor_dist` | `Kernel/CutoffProps` | counting characterisation; witnesses | partial | Minimality proved for n >= 10 points and k not larger than the subsample. The check of k uses 'and' instead of 'or': k=1 is accepted (cut-off always 0), non-integers above 1 are truncated; k is limited by the subsample size although all points are searched; below ten points k is ignored. |
| C134 Cone kernel | `ConeKernel` | `Kernel/ConeProps` | bounds of the cosine; state machine | partial | Symmetry, range and agreement of pdist/cdist proved. The documented formula only holds for zeta=0: the code applies np.cos to the cosine, which reverses the effect of the angle (proved for all zeta in (0,1)). Component-wise evaluations with new reference data use stale derivatives. |
| C135 Variable bandwidth kernel gives a discrete generator | `DmapKernelVariable`, `DiffusionMapsVariable` | `Kernel/VariableProps` | matrix algebra, Rayleigh quotient | partial | Formulas, symmetry, spectral bound and row sums proved for symmetrize_kernel=True. Without symmetrisation the kernel is not divided by its row sums: constants are not annihilated for every cloud of two points. The constructor's checks test the type of expected_dim with 'and', so negative epsilon, k and dimensions are accepted. |
| C136 Eigenpairs and singular triplets of kernel matrices | `scipy_eigsolver`, `compute_kernel_eigenpairs`, `compute_kernel_svd`, `_DmapKernelAlgorithms.solve_eigenproblem` | `Kernel/EigsolverProps` | relation for LAPACK/ARPACK results, permutations | partial | Correct and sorted for kernels whose matrix is symmetric whenever they are flagged symmetric. If all eigenpairs are requested the flag alone decides (not the symmetry of the distance): eigh then reads the lower triangle of an unsymmetric matrix, and no returned pair need be an eigenpair. |
| C137 What a model accepts in fit and remembers of it | `TSCPredictMixin._validate_and_setup_fit_attrs`, `TSCPredictMixin._validate_feature_names`, `TSCPredictMixin._validate_delta_time`, `DMDStandard.fit`, `DMDControl.fit` | `Dyn/FitAttrsProps` | state machine over fits; equivalence of checks | partial | False for series whose offsets are no multiple of the interval (assertion, depending on which series ends last), after failed calls of fit (names and interval are overwritten before the checks) and for irregular series in partial_fit (nan is never different). |
| C138 Simulated time series keep ID and start of their initial condition | `ODE.predict`, `ODE._prepare_ic_and_time_values` | `Utils/SimulateProps` | list induction over initial conditions | partial | The full property is false: IDs are renumbered 0..n-1, the time of the initial conditions is ignored and the default for time_values raises UnboundLocalError. Proved for IDs 0..n-1 and arrays; the ODE solver is a parameter, integer time values. |
| C139 Simulated initial conditions are driven by the control with their ID | `ControllableODE.predict`, `TSCPredictMixin._validate_and_set_time_values_predict` | `Utils/SimulateProps` | list induction over initial conditions, late bound arguments | partial | The full property is false: controls are paired by position, result IDs are 0..n-1, an earlier initial condition is moved to the first control time, several one-step controls as collection are rejected. Proved for IDs 0..n-1 in order; callable controls are in C234; integer time values. |
| C140 The limit cycle benchmark is the solution of its equation | `LimitCycle._compute_angle`, `LimitCycle._as_cartesian_coordinates`, `LimitCycle.eval_analytical`, `LimitCycle.eval_finite_differences` | `Utils/BenchmarksProps` | derivatives, limits, trigonometric identities | partial | False for the first row: the starting radius is increased by 1e-10. Everything else is proved for all points with norm at least 1e-15; exact real arithmetic. |
| C141 Hopf benchmark: polar initial conditions and polar results | `Hopf.predict`, `Hopf._f` | `Utils/BenchmarksProps` | derivatives, complex argument | partial | False for arrays of polar initial conditions (not converted), for data frames (overwritten) and for the radius on the second axis (division by cos theta = 0). |
| C142 Trigonometric coordinates of the inverted pendulum can be inverted | `InvertedPendulum.theta_to_trigonometric`, `InvertedPendulum.trigonometric_to_theta` | `Utils/BenchmarksProps` | range of the complex argument | partial | Proved as equivalence: states are recovered iff angle and angular velocity are in (-pi, pi]; false for larger angular velocities. |
| C143 The voltage acts on the inverted pendulum as documented | `InvertedPendulum._f` | `Utils/BenchmarksProps` | case analysis, algebra | partial | False: the gain is added to the voltage in the cart equation and replaces it in the pendulum equation. The partial theorem gives the exact difference to the documented right-hand side. |
| C144 Pendulum benchmark: energy and position | `Pendulum._integrate_pendulum_sim`, `Pendulum._convert_cartesian` | `Utils/BenchmarksProps` | derivatives | proved | Exact solutions; the ODE solver is not modelled. |
| C145 Burgers' equation benchmark: conservation, symmetry, period and implicit step | `Burger1DPeriodicBoundary._f`, `Burger1DPeriodicBoundary._step`, `Burger1DPeriodicBoundary.__init__` | `Utils/BenchmarksProps` | sums over cyclic shifts | partial | False for the period (both ends of the domain are nodes) and the implicit step (its residual is -dt times the right-hand side, so Newton's method searches a stationary state; the Jacobian it uses reads an attribute that does not exist and is not modelled). |
| C146 Equilibria of the benchmark systems | `ThreeStablePoints._f`, `Lorenz._f`, `ClosedPeriodicalCurve._closed_system` | `Utils/BenchmarksProps` | algebra | partial | False for the stability: the origin of ThreeStablePoints has the eigenvalue 1. |
| C147 A linear system is set up with matching matrices, and can be set up again | `LinearDynamicalSystem.setup_matrix_system`, `LinearDynamicalSystem.setup_spectral_system`, `LinearDynamicalSystem.is_linear_system_setup`, `DMDStandard.fit`, `DMDControl.fit` | `Dyn/SystemProps` | state machine, case analysis | partial | False in matrix mode: a fitted model rejects every later fit; a rejected set up leaves the system half set up. Left eigenvectors are not checked, and a system in spectral mode accepts a system matrix. The spectral mode is proved for all histories. |
| C148 evolve_system accepts exactly fitting arguments | `LinearDynamicalSystem.evolve_system`, `LinearDynamicalSystem._set_and_check_system_params`, `LinearDynamicalSystem._check_time_values`, `LinearDynamicalSystem._check_control_input` | `Dyn/SystemProps` | equivalence of checks with a specification of shapes | partial | Proved for real-valued time values and given feature names; the default feature names are rejected for every matrix that is not square, and arrays that are not numbers pass the check of the time values (and instead of or). |
| C149 A map given to predict is applied to every predicted state | `DMDBase._read_predict_params`, `DMDBase._read_user_sys_matrix`, `DMDBase.predict`, `LinearDynamicalSystem._set_sys_matrix` | `Dyn/SystemProps` | matrix algebra; naturality of the frame around the solver | partial | Proved for uncontrolled flow maps in spectral mode; false for controlled systems in spectral mode (the map is applied in every step) and for the overwritten matrix in matrix mode. |
| C150 Windowed reconstruction predicts every window from its own first samples | `EDMDWindowPrediction._window_reconstruct`, `EDMDWindowPrediction.adapt_model`, `TSCAccessor.iter_timevalue_window` | `Edmd/WindowProps`, `Edmd/WindowControlProps` | block lemmas for the index, loop characterisation of the windows | partial | Values, IDs and time values proved for every model; with the documented offset test samples do not overlap, but the last samples are dropped whenever their number is not a multiple of the offset. |
| C151 Reconstruction of controlled data works like reconstruction of uncontrolled data | `EDMD.reconstruct`, `EDMD._reconstruct`, `InitialCondition.validate_control`, `EDMDWindowPrediction._window_reconstruct`, `EDMDWindowPrediction._window_score` | `Edmd/WindowProps`, `Edmd/WindowControlProps` | equivalence for validate_control; errors for every model | partial | Proved for series of equal length that start at time zero; raises for every other start time and for different lengths; windows proved if the control input is sampled at all time values of the states and the first series starts at time zero, raises for every other start; a window that covers the series and the score of windows never work with control. |
| C152 Stepwise predictions apply the model again from each predicted state | `EDMD._predict_stepwise_transform`, `TSCAccessor.expand_time_values` | `Edmd/StepwiseProps` | loop invariant over the filled frame; induction on time values | partial | Proved for initial conditions whose IDs increase along the rows (needed by expand_time_values) and any one-step prediction; the step itself is computed by the model for point-wise dictionaries only. A single requested time value raises for one initial condition. Control input: C236. |
| C153 Koopman eigenfunctions evolve with their eigenvalues | `EDMD.koopman_eigenfunction`, `EDMD.koopman_modes`, `LinearDynamicalSystem.compute_spectral_system_states` | `Edmd/StepwiseProps` | uniqueness of coordinates in the basis of eigenvectors | proved | For point-wise dictionaries. |
| C154 Controlling a system along a reference is a closed loop of controller and system | ` KMPC.control_system_reference`, ` KMPC.control_sequence_horizon`, ` TSCAccessor.fill_timeseries_with_last_state`, ` TSCAccessor.augment_control_input`, ` ControllableODE.predict` | `Mpc/ClosedLoopProps` | induction over the passes of the loop with the collected steps as invariant | partial | Proved with attached control input for every controller and system (also for the simulated systems). False without attached control input (the default), where the first step raises, and for the last sample of the reference, which is never reached. |
| C155 An EDMD dictionary is one function of the last n_samples_ic_ samples | `EDMD.fit, transform, _compute_n_samples_ic, _attach_id_state`, `TSCTakensEmbedding, TSCMovingAverage` | `Edmd/DictionaryProps`, `Edmd/DictionaryChain` | composition of causal windows, induction over the chain of transformers | partial | Proved for integer time values and all chains of the three kinds of transformers. Series that are too short raise in the delay embedding but are left out without notice by the moving average. |
| C156 Mapping a dictionary back gives the original states | `EDMD.inverse_transform, _compute_inverse_map, _set_dict_preserves_id_state, _attach_id_state`, `TSCFeaturePreprocess` | `Edmd/DictionaryProps`, `Edmd/DictionaryChain` | projection matrix entries, induction over the chain | partial | Proved for attached states and for chains of delay embeddings. With a scaler, which keeps the names and changes the values, the scaled values are returned (the documentation of dict_preserves_id_state warns that only names are compared). |
| C157 The grid search selects and refits the best candidate without leaking test samples | `EDMDCV.fit, _fit_and_score_edmd, _split_X_edmd, EDMDWindowPrediction.adapt_model` | `Edmd/GridSearchProps` | index arithmetic of the flat task list; characterisation of ranks and argmin | partial | Proved for the score function of the class. A score function that adapt_model attached to the estimator is lost in clone: it is not used for the selection, although the selected estimator has it. Control input is not passed to the score (not modelled). |
| C158 A column transformer joins its parts on the common samples | `TSCColumnTransformer._hstack`, `TSCColumnTransformer.n_features_out_` | `Edmd/ColumnTransformerProps` | membership in the sorted outer join; equality of sorted lists with the same samples; windows of different lengths | partial | Proved for transformers that are given by column names and integer time values. n_features_out_ raises if a column has no transformer, because the string 'drop' is then an entry of transformers_. |
| C159 Data validation accepts exactly the data that are asked for | `TSCBase._validate_datafold_data`, `TSCTransformerMixin._same_type_X` | `Dyn/ValidateProps` | equivalence of the code's checks with a specification; witnesses | partial | Proved for numeric data and integer time values. A plain frame passes although a numpy array is required (the exception is created but not raised), and the number of features of a collection is not checked. |
| C160 Parameters of fit are not ignored | `TSCBase._read_fit_params` | `Dyn/ValidateProps` | induction over the known parameters | proved |  |
| C161 Jointly smooth functions of any number of data sources | `JointlySmoothFunctions.fit`, `JointlySmoothFunctions.transform` | `Kernel/JsfManyProps` | singular value identity for the stacked eigenvectors; Bessel inequality | partial | Optimality among all functions proved for any number of splits, given the leading singular triplets (relation). transform multiplies the functions by sigma^2/K at the training points, so it differs from fit_transform for every function that is not in the span of every split; it raises if fewer functions than requested exist. |
| C162 Scaled features can be mapped back | `TSCFeaturePreprocess.fit`, `TSCFeaturePreprocess.inverse_transform` | `Transform/ScalersProps` | affine maps of lists; witnesses | partial | Round trip proved for scalers fitted to frames. A scaler fitted to an array cannot map back (the attribute feature_names_in_ is read but does not exist), and inverse_transform accepts columns with any labels in any order and relabels them. Exact real arithmetic. |
| C163 Principal components are the best linear reduction | `TSCPrincipalComponent.fit`, `TSCPrincipalComponent.transform`, `TSCPrincipalComponent.inverse_transform` | `Transform/PcaProps` | orthogonal projection, Ky Fan inequality, state machine over fits | partial | Optimality among all affine spaces proved, given the leading singular vectors (relation). inverse_transform raises after a second fit with another number of components (n_features_out_ is set once) and for every model that was fitted to an array. |
| C164 Feature selection returns the selected columns | `TSCFeatureSelect.fit`, `TSCFeatureSelect.transform` | `Transform/SelectProps` | equivalence of index checks, list induction | partial | Proved for positions. Selection by names is rejected for all data: the dtype of an array of strings never equals np.str_. |
| C165 Random features can be fitted and approximate the Gaussian kernel | `FourierRBF.fit`, `FourierRBF.transform`, `TSCSampledNetwork.fit` | `Transform/SelectProps` | trigonometric identities, characteristic function of the normal distribution; errors for every call | partial | The kernel identities are proved for the transformation. fit raises a TypeError for Fourier features unless the keyword argument fit_params={} is passed, and a new sampled network never passes the check at the start of fit. |
| C166 Control-affine generators are the least squares solution | `gDMDAffine._compute_koopman_and_control_matrix`, `gDMDAffine.fit`, `gDMDFull.fit` | `Dmd/AffineProps` | reduction to least squares of the lifted samples; selection of keys per series | partial | Least squares and recovery proved for all data. Pairing: gDMDFull pairs each derivative with its own sample; gDMDAffine selects by the time values of all series, so it raises a shape error (and nothing else happens) exactly if some series has a sample, but no derivative, at a time where another series has one. |
| C167 The residual filter keeps the components asked for | `DMDStandard._remove_spectral_pollution` | `Dmd/FilterProps` | permutation and filter lemmas, order statistics of sorted lists, iteration of fits | partial | The threshold zero is taken for a missing option and raises; keep_n keeps more than n components if residuals tie (as for complex conjugate pairs); fit overwrites a numeric parameter with a dictionary, without an effect on later fits. The quantile function is a parameter. |
| C168 Exact modes of oscillating systems have the residual zero | `DMDStandard._remove_spectral_pollution`, `DMDStandard._compute_reduced_system_matrix` | `Dmd/FilterProps` | sesquilinear forms of Gram matrices; normal matrices | partial | True for models with a rank (the residual is computed for the conjugate eigenvalue and right instead of left eigenvectors, the two errors cancel for normal matrices). Without a rank the squared residual of a true mode is 4 Im(eigenvalue)^2. |
| C169 The pseudospectrum is the least residual | `DMDStandard.pseudospectrum` | `Dmd/PseudoProps` | Rayleigh quotients of Hermitian matrices, inverse square root from the eigendecomposition | partial | The residuals are proved to be the minimum over all observables (exact arithmetic; eigh and eigs are relations). The returned pseudo eigenfunctions are not transformed back with the inverse root of the Gram matrix and do not have the reported residual. |
| C170 Spectral methods are available after the fit that asks for them and use the data of the last fit | `DMDStandard.fit`, `DMDStandard.pseudospectrum`, `DMDStandard.spectral_measure` | `Dmd/PseudoProps` | state machine over parameter changes and fits | partial | True for compute_pseudospectrum together with a rank or a residual filter. Otherwise the matrices are None or missing; the ValueError is hidden by an AttributeError (typo in its message); switching compute_pseudospectrum off leaves the matrices of an earlier fit in use. |
| C171 The spectral measure depends on the model and the observable only | `DMDStandard.spectral_measure`, `DMDStandard._calc_c`, `DMDStandard._calc_d`, `DMDStandard._calc_z` | `Dmd/PseudoProps` | Vandermonde systems; transformation of the resolvent by the decomposition; two runs with different values | partial | The weights exist and are unique. The value is right if Z^2 g = g for the matrix Z of the QZ decomposition, otherwise not: the fourth result of scipy.linalg.qz is Z, but is used as its transpose. The observable of the caller is divided by its norm in place. |
| C172 A fixed sampling interval applies to everything a collection reports | `TSCDataFrame.__init__`, `TSCDataFrame.time_values`, `TSCDataFrame.delta_time`, `TSCDataFrame.time_interval`, `TSCDataFrame.__repr__`, `TSCAccessor.normalize_time` | `Tsc/FixedProps` | scaling of strictly increasing lists; floor arithmetic of the normalised index | partial | True for time_values, delta_time and time_interval(). time_interval(id) reports the integers of the index; frames selected from the collection lose the interval; normalize_time mixes scaled and unscaled times and raises unless the collection starts at (nearly) zero; the display flag is inverted and the scaled display swaps times of different series. Intervals are exact rationals. |
| C173 The control-affine controller uses the state it is asked for | `AffineKgMPC._predict`, `AffineKgMPC.generate_control_signal` | `Mpc/AffineMpcProps` | invariant over all programs | partial | True if the caller never overwrites an array it has passed before. The cache stores a reference to the array, so a state that is updated in place is compared with itself and the lift of the first state is used for ever. |
| C174 The Jacobian of the control-affine controller is the derivative of its cost | `AffineKgMPC.cost_and_jacobian`, `AffineKgMPC.jacobian` | `Mpc/AffineMpcProps` | derivative of the pairing of adjoint and variation, fundamental theorem of calculus with exceptions; uniqueness of the adjoint (Gronwall) | partial | The Jacobian is proved to be the derivative of the cost integral (first variation, adjoint equation with exact solutions and jumps of the input). The cost that is handed to the optimiser is a sum over the time values; the reference at the last time never enters the Jacobian, for a horizon of one step the tracking cost has no influence at all. |
| C175 Selected rows of a collection | `_LocTSCIndexer.__getitem__`, `_iLocTSCIndexer.__getitem__`, `TSCDataFrame.__getitem__`, `TSCDataFrame.xs` | `Tsc/SelectProps` | validity of sublists; uniqueness of rows with a given key; equivalence of acceptance and validity of the selected index | partial | True for non-empty selections in an order that forms a collection, and for cross sections. A condition that no row meets raises an IndexError, other orders raise an AttributeError: the intended fallback to a plain frame is unreachable. Lists of numbers cannot be assigned. pandas' own selection is described, not modelled. |
| C176 Score of DMD models | `DMDBase.score`, `DMDBase.reconstruct`, `TSCPredictMixin._setup_default_tsc_metric_and_score` | `Dmd/ScoreProps` | sorted permutations of the index are equal; combination of the reconstruction and metric theorems | partial | For the classes with a score, it is a number iff the series are stored by first time value, last time value and ID; then it is at most 0, and 0 iff the reconstruction is exact. Otherwise score raises, even for exact reconstructions, because reconstruct returns the series in the order of the groups. Five of the eight classes have no score at all. |
| C177 Models from a given system matrix | `PretrainedDMD.from_available_system_matrix`, `compute_spectral_components`, `PretrainedDMD.fit`, `PyDMDWrapper.fit` | `Dmd/PretrainedProps` | permuted and scaled eigenbases diagonalise; case analysis of the checks | partial | True for diagonalisable matrices that are invertible if left eigenvectors are asked for. Singular matrices raise with left eigenvectors; fit accepts data with another number of features, all predictions then raise; the wrapped DMDc model can never predict and gets the control input shifted by one step. |
| C178 Error observables | `EDMDPostObservable` | `Edmd/PostObservableProps` | uniqueness of rows with a given key; case analysis of all outcomes | partial | The error time series is the absolute difference at all keys but the first of the frame; with several series the initial states of all series but the first stay in. fit_transform raises a TypeError whenever its checks and fits succeed, because the inverse map is called without a required argument: no error observable can be obtained. |
| C179 HAVOK coordinates | `HAVOK` | `Edmd/PostObservableProps` | normal equation of the Moore-Penrose inverse; uniqueness of least squares solutions; shapes | partial | transform and the fitted matrices are right (svd, pinv and lstsq are relations, exact arithmetic); fit_predict raises for every input because the forcing is handed over in the shape (samples, 1, 1), which is read as that many initial conditions. |
| C180 Gradient of the geometric harmonics | `GeometricHarmonicsInterpolator.gradient`, `GeometricHarmonicsInterpolator._precompute_aux` | `Kernel/MahalanobisProps` | partial derivatives of Gaussians; a family of interpolants with one eigenpair | partial | For Gaussian kernels gradient returns -epsilon times the gradient of the kernel sum weighted with the target values. The prediction is weighted with the fitted coefficients; a family of examples with the opposite sign is given. The authors mark the method as wrong without saying how. |
| C181 Mahalanobis kernel | `MahalanobisKernel.evaluate`, `MahalanobisKernel.__call__` | `Kernel/MahalanobisProps` | entries of the averaged matrix | partial | True for pairs stored in both directions and stored zeros on the diagonal. Dense distance matrices lose their zeros: the diagonal of the kernel is zero. Pairs stored once get half the value. Query points are replaced by reference points. A given epsilon only (no estimation). |
| C182 Threshold and score of jointly smooth functions | `JointlySmoothFunctions.compute_E0`, `JointlySmoothFunctions.score_` | `Kernel/JsfThresholdProps` | shuffled orthonormal columns stay orthonormal; energies of the two-split functions; Bessel inequality | partial | True for two splits and at least three requested functions. For more splits the unshuffled eigenvectors are used and the threshold can exceed every possible energy; fewer than three functions raise an IndexError; score_ returns a dict_values object. Singular value decompositions are relations; arrays only (data frames are not modelled). |
| C183 Score of an EDMD model | `EDMD.score`, `EDMD.reconstruct` | `Edmd/ScoreProps` | index of the reconstruction, lookup of rows by index, zero of the metric (C63), C35; witness with two series at rest | partial | True if no series is shorter than one before it and the IDs ascend. Otherwise the rows of the reconstruction carry the labels of other series and an exact model has a negative score. |
| C184 Slices of an EDMD model | `EDMD.__getitem__` | `Edmd/ScoreProps` | case distinction over the bounds, for lists of any length | proved | Non-negative bounds. An empty slice raises an IndexError. |
| C185 Evolution of a linear system over given time values | `LinearDynamicalSystem.evolve_system` | `Dyn/EvolveProps` | composition of the solver with from_tensor (C02), closed form of the controlled recursion | partial | True without control. With control the initial condition is the state at the first given time value, whatever it is, and time values out of order get the wrong states. |
| C186 Finite differences as a transformer | `TSCFiniteDifference`, `TSCAccessor.time_derivative` | `Transform/FiniteDifferenceProps` | exactness of check_tsc (C62), delta_time (C11) and time_derivative (C128) composed | partial | True with spacing 'dt'. With a number as spacing fit always raises a TypeError (check_scalar is called without a name); a second partial_fit checks nothing. |
| C187 Jointly smooth functions of arrays, frames and collections | `JointlySmoothFunctions.fit`, `JointlySmoothFunctions.transform`, `TSCDataFrame.from_same_indices_as` | `Kernel/JsfTypesProps` | case analysis of the number of columns in fit and transform | partial | True for collections. pandas frames are never accepted; for arrays fewer functions are returned without notice and transform of such a model raises. |
| C188 The continuous nearest neighbour kernel accepts exactly distance settings with enough neighbours | `ContinuousNNKernel.__init__`, `init_distance_algorithm`, `GuessOptimalDist` | `Dist/CknnDistanceProps` | dictionary lookups, composition with the model of init_distance_algorithm (C106) | partial | True for algorithm objects that state a number of neighbours, and without the argument. The dense algorithm is refused; in a dictionary kmin has no effect (only the undocumented key k has, and is not compared), backend raises, and the dictionary of the caller is changed. |
| C189 A diffusion kernel object remembers exactly its first accepted pair-wise evaluation | `DmapKernelFixed`, `BaseManifoldKernel._required_attrs`, `GaussianKernel.evaluate`, `ContinuousNNKernel` | `Kernel/HistoryProps` | state machine, invariant over histories by induction; composition with C101 | partial | True for internal kernels without state. A refused component-wise evaluation fixes a callable bandwidth of an internal Gaussian kernel; evaluate never accepts pair-wise distances for an internal continuous nearest neighbour kernel. |
| C190 EDMD with delays predicts linear recurrences and partially observed linear systems exactly | `EDMD.fit`, `EDMD.predict`, `TSCTakensEmbedding` | `Edmd/DelayProps` | closed dictionaries on windows, induction on steps; block companion matrix; Cayley-Hamilton theorem | proved | Exact arithmetic, integer time values, full rank least squares system matrix (relation), prediction with the system matrix. C190_recovery_partial and C190_prediction_partial state the same for every dictionary with memory that is closed under the dynamics; there the IDs must ascend or the series have equal lengths (for the embedding this holds by itself). |
| C191 EDMD with control and delays identifies controlled linear recurrences and predicts them exactly | `EDMD.fit`, `EDMD.predict`, `InitialCondition.validate_control`, `DMDControl.fit` | `Edmd/ControlDelayProps` | closed dictionaries on windows with inputs, alignment of the index, uniqueness of least squares (C31), induction on steps | proved | At least one delay, exact arithmetic, integer time values, full rank least squares system (relation). C191_recovery_partial and C191_prediction_partial state the same for every dictionary with memory that is closed under the controlled dynamics. The initial conditions and control inputs of a prediction have ascending IDs. |
| C192 With an exact model, Koopman MPC solves the control problem of the real nonlinear system | `KMPC.control_sequence_horizon`, `EDMD.fit`, `EDMD.transform` | `Mpc/ExactProps` | composition of C191 (recovery), C39, C40 and C87; the lifted trajectory is the lift of the trajectory of the system, by induction | partial | Quantities of interest in the order of the dictionary (other orders: C87), terminal weights not all zero (C39), bounds as (lower, upper) pairs (C40). Exact arithmetic; least squares and the quadratic solver are relations. |
| C193 With an exact model, the closed loop of Koopman MPC and the real system is receding-horizon optimal control of the real system | `KMPC.control_system_reference`, `KMPC.control_sequence_horizon`, `EDMDControl` | `Mpc/LoopExactProps` | Composition of C154 (what the loop hands to the controller and the system) with C191/C192 (recovery, cost and bounds of the model are those of the system): `kmpcLoop` puts the fitted dictionary and the quadratic program of `Kmpc` into the loop model; the system is any `f` that realises the recurrence on measured windows (hidden states allowed). Induction over the steps: the measured windows are those of the recurrence; every applied input is first in an optimal sequence; exact tracking by zero cost. | partial | Receding-horizon optimality for the real system in every step of the closed loop and exact tracking. Missing: the last sample of the reference is never reached (C154_end_violated), augment_control=False fails (C154_plain_violated); the solver is assumed to return a solution of the quadratic program, and one for every lifted state (no infeasible problems on the way). |
| C194 Laplacian pyramids treat several target functions as separate models | `LaplacianPyramidsInterpolator.fit`, `LaplacianPyramidsInterpolator.predict` | `Kernel/PyramidFormula` | Closed-form specification of one target function (residual recursion, first stopping level, sum of levels); invariant of the masked loop for all target functions together, by induction over the iterations; uniqueness of the first stopping level gives independence. | proved | alpha between 0 and 1; exact real arithmetic. |
| C195 Kernel models depend on the geometry of the samples only | `DiffusionMaps.fit`, `DiffusionMaps.transform`, `GeometricHarmonicsInterpolator.predict`, `LaplacianPyramidsInterpolator.predict` | `Kernel/FitProps` | Kernel/Fit.lean composes the kernel call, the normalisations, the eigensolver relation and the out-of-sample extension. Every step is shown to commute with Matrix.submatrix for a bijection of the training points and an arbitrary map of query points; distances are invariant under isometries and scale with the square of the unit. Laplacian pyramids: from the closed formula of C194. | proved | Dense distances, kernel bandwidths given as numbers, exact arithmetic; the eigensolver is a relation. All normalisations of the diffusion kernel and all radial kernels. |
| C196 DMD and EDMD models do not depend on the coordinates of the states, the basis of the dictionary or the arrangement of the data | `DMDStandard.fit`, `DMDControl.fit`, `EDMD.fit`, `EDMD.predict` | `Dmd/InvarianceProps`, `Dmd/MinimalProps` | Change of variables in the normal equations (rows of the least squares problem reindexed, columns multiplied by an invertible matrix); index operations of shift_matrices commute with maps of the values; the sum of squared errors is invariant under permutations and multiplied by m for m copies. The smallest norm is kept by similarities (trace of the product); the witness against general coordinates is a state at rest on the first axis and a shear, for which both sets of minimisers are computed. | partial | The theorems hold for all minimisers of the least squares problems. scikit-learn returns the one of minimal norm: it does not depend on the coordinates if the data determine the matrix or if the coordinates are rotated or scaled by a common factor, but C196_minimal_violated gives data that do not span the state space and a shear for which it does. The arrangement theorem needs ascending IDs or series of equal lengths: C30_order_violated shows that otherwise the order of the series changes the fit. |
| C197 Distance algorithms state correctly what they compute and accept exactly the data they can compute with | `DistanceAlgorithm`, `BruteForceDist`, `ScipyKdTreeDist`, `SklearnBalltreeDist`, `SklearnKNN` | `Dist/ObjectsProps` | Case analysis of the constructors and the shape checks; symmetry through the radius query, the inserted diagonal and the inserted nearest neighbours; a concrete cloud for which every nearest neighbour matrix is unsymmetric. | partial | Symmetry, constructors and two-dimensional data proved. is_sparse is True for every object without cut-off although arrays are returned; kmin=0 (the default of PCManifold) is rejected by the tree algorithms; one-dimensional arrays are n points as reference but one point as query, so dist(x, x) raises where dist(x) works. |
| C198 Regular meshes cover their box, and the comparisons of matrices decide what they say | `generate_2d_regular_mesh`, `is_symmetric_matrix`, `assert_equal_eigenvectors` | `Utils/MeshProps` | Closed form of linspace and of the raveled meshgrid (induction over the rows); rounding to the nearest grid value for the covering; supremum over all entries; the equality case of the Cauchy-Schwarz inequality. | partial | Exact arithmetic. One value on an axis leaves out the upper side of the box; columns beyond those of the narrower matrix are not compared. |
| C199 Parameters of an estimator can be read, changed and cloned | `DMDStandard`, `LinearDynamicalSystem`, `DiffusionMapsVariable`, `EDMD`, `PyDMDWrapper`, `DMDControl` | `Utils/ParamsProps` | Constructors as lists of assignments; invariant that an object holds a valuation of its parameters, kept by set_params; a decidable criterion checked for each class; concrete objects for the violations. | partial | Proved for the 24 estimators whose constructor only stores its parameters. DMDStandard, gDMDFull, DMDControl and PretrainedDMD select their solver in the constructor, so set_params of the mode keeps the old solver; approx_generator likewise; DMDControl ignores unknown keywords; PyDMDWrapper loses its additional parameters in a clone; DiffusionMapsVariable does not store a parameter, so get_params, set_params and clone raise; EDMD keeps dict_steps and steps apart. Nested parameters are not modelled. |
| C200 Multi-scale geometric harmonics meet the admissible error | `MultiScaleGeometricHarmonicsInterpolator` | `Kernel/MultiScaleProps` | Induction over the passes of the loop; Pythagoras for the projection on orthonormal eigenvectors; characterisation of argmax as first position; concrete kernels for the violations. | partial | Proved if all eigenpairs are computed and the loop ends. The code computes 300 eigenpairs and measures the error only on them, so a target outside their span is accepted with any error; with the default condition, or one that no ratio reaches, no eigenvector is used and fit never ends. The call of the fitted object reads an attribute that is never set (outofsample.py 471). |
| C201 EDMD that maps back with the inverse transformers of its dictionary | `EDMD.inverse_transform`, `EDMD._predict_dict_ic`, `EDMD.fit` | `Edmd/TransformInverseProps` | The fitted dictionary is a list of pairs of `transform` and `inverse_transform` on frames; the loops over the transformers are modelled as they are, the DMD model is the flowmap of `Dyn/Linear.lean`. The round trip is an induction over the transformers, the prediction combines the recovery theorem of DMD (C30) with the powers of the system matrix (C26) and shows that the predicted frame is the dictionary of the true trajectory. The failures are proved for all inputs. | partial | Round trip and exact prediction are proved for dictionaries of any number of transformers without memory whose states are not attached. With the default include_id_state=True and a dictionary with other labels the original states are attached and never removed before the transformers are undone, so every prediction fails (for all data and models); the control input is not handed to the DMD model, so with a controlled model every prediction fails. Restricted by the order of IDs as C30. |
| C202 Controlled benchmark systems follow their equations | `InvertedPendulum2._f`, `DCMotor._f`, `VanDerPol._f`, `Duffing._f` | `Utils/ControlBenchmarksProps` | The right-hand sides are modelled as real functions. The accelerations are characterised as the unique solution of two balance equations written down separately, from which the change of energy along solutions follows by differentiation; coefficient bounds by exact rational arithmetic; equilibria by solving the equations. | partial | Proved for fixed constants of the second inverted pendulum; its documented parameters have no effect (all constants are local variables of the right-hand side). The motor agrees with the documented equations up to the rounding of its coefficients, with explicit bounds. |
| C203 A continuous nearest neighbour kernel remembers its reference points | `ContinuousNNKernel.__call__`, `ContinuousNNKernel.evaluate`, `PCManifoldKernel._required_attrs`, `DmapKernelFixed.__call__` | `Kernel/CknnHistoryProps` | State machine with the attribute `reference_dist_knn_` as state; induction over the history before and after the first accepted evaluation; acceptance and edges through the k-th smallest entry (C100, C101). Inside a diffusion kernel the accepted graph is symmetric with self-loops, so that both objects store their attributes in the same call. | partial | The history is proved completely, also inside a diffusion kernel with stochastic normalisation. Other reference points are refused only if their number differs: a cloud with the same number of points is accepted and silently combined with the neighbour distances of the first one (concrete points on the line). |
| C204 Online EDMD finds the model of the batch fit | `EDMD.partial_fit`, `EDMD._partial_fit`, `OnlineDMD.partial_fit`, `TSCIncrementalPCA.partial_fit` | `Edmd/OnlineFitProps` | Transformers as state machines, `_partial_fit` and the series of calls as recursions; induction over transformers and batches shows that the first fit is kept. The stream of dictionary values is that of C32, whose minimiser is compared with that of `fit` (C30) through the sum of squared errors, invariant under permutations. For the default start the strict minimality of the penalised error is evaluated on the line from the exact matrix to the start matrix. | partial | Proved for transformers that are fitted once (all with partial_fit except TSCIncrementalPCA) and a first batch that is fitted together and spans the dictionary space. With the default start the matrix is never exact, whatever exact data are given (proved, with a bound of the error); with TSCIncrementalPCA each batch is handed over in the coordinates of that moment, and the result is not the least squares solution for the final dictionary. Restricted by the order of IDs as C30. |
| C205 Settings are accepted exactly in their documented range | `DiffusionMaps._validate_settings`, `Roseland._validate_setting`, `DiffusionMaps.laplace_beltrami`, `DMDStandard._validate_parameters`, `gDMDFull._generate_fd_kwargs`, `StreamingDMD._validate_parameter`, `OnlineDMD._validate_parameters` | `Utils/SettingsProps` | Python objects by type, IEEE comparisons with nan, `check_scalar`; each check characterized by a separate specification of integers and numbers; kernel objects as heap | partial | the accepted settings are characterized exactly. Violated: nan passes every range check; Roseland refuses numpy integers and float32 that DiffusionMaps takes; the tolerance of StreamingDMD must be a float; the default kernel of the class methods is one object shared by all models |
| C206 Sample weights of DMD count the snapshot pairs | `DMDStandard.fit`, `DMDStandard._compute_full_system_matrix`, `diagmat_dot_mat` | `Dmd/WeightsProps` | `readWeights` models which weights are accepted (numpy broadcasting, no weights with a rank) and `FitsWeighted` the fit; the meaning is proved through C30: the weighted total error equals the error over the list in which every pair is repeated, and the normal equations are homogeneous in the weights. | partial | The minimisation itself is C30_least_squares_partial. Violated: the weights belong to the pairs of consecutive samples, so one weight per sample is never accepted, and negative weights are accepted and can give the model with the largest error. The counting theorem needs ascending IDs or series of equal lengths (C03). |
| C207 A fitted kernel model does not depend on the later life of its kernel object | `DiffusionMaps.fit`, `GeometricHarmonicsInterpolator.fit`, `GeometricHarmonicsInterpolator.predict`, `JointlySmoothFunctions._kernel_content_fit`, `GaussianKernel`, `ContinuousNNKernel` | `Kernel/OwnershipProps` | Heap of kernel objects with a state and of models that hold a copy or a reference (`Kernel/Ownership.lean`, `KOp`, `kRun`); the specification `freshValue` is a model fitted once. Invariant of the attributes of one model by induction over the history; frame lemmas for the other models; the kernels (Gaussian with number or function, continuous nearest neighbours) are instances. | partial | Proved for diffusion maps and jointly smooth functions (they copy the kernel), for every history. Geometric harmonics use the object of the user: proved for histories that do not change it; a changed bandwidth changes the predictions without a fit, a callable bandwidth is replaced by the number of the first data, and a continuous nearest neighbour kernel can be used for one fit only. |
| C208 A refused fit leaves a kernel model as it was or unusable | `DiffusionMaps.fit`, `DiffusionMaps.transform`, `GeometricHarmonicsInterpolator.fit`, `JointlySmoothFunctions.fit`, `JointlySmoothFunctions.transform` | `Kernel/OwnershipProps` | The same machine: `fitModel` returns the state for every refusal. The missing attributes of the wrapped kernel are an invariant of all histories without a new fit; the negations compute the values returned after the refusal. | partial | Proved for refused data (nothing changes) and for diffusion maps and geometric harmonics refused before the eigenproblem (the model cannot be used). Negation: if the eigenproblem cannot be solved the old eigenpairs are combined with the new kernel matrix; jointly smooth functions combine the old kernel and eigenvectors with the new data after every refusal that comes after the validation. |
| C209 Refused fits of an EDMD model | `EDMD.fit`, `EDMD.partial_fit`, `EDMD.transform` | `Edmd/RefusedFitProps` | State machine of the attributes of an `EDMD` object (`Edmd/RefusedFit.lean`): `fit` returns the attributes for every place where it can raise. Congruence of the accepted result in all attributes, induction over histories for the steps and the mode; the part of the dictionary that is fitted anew is found by induction over the steps; numbers by a min-max scaler with a DMD model of one feature. | partial | Proved: accepted calls give the model of a new object after every history of fits; refused data change nothing; the inverse map survives every refusal. Negation: the transformers are fitted in place, so that after a refusal new transformers are combined with the old DMD model and inverse map (other transform and predictions, with numbers), or a new system with the old inverse map; a refused first call of fit excludes partial_fit for ever, and the other way round. |
| C210 A fitted EDMD model can predict with the control input it was fitted with | `EDMD.fit`, `EDMD.partial_fit`, `EDMD.predict`, `TSCPredictMixin._validate_feature_names` | `Edmd/RefusedFitProps` | The same machine; `predict` is characterised by the flag for the control input and the control part of the DMD model, then each history is computed. | partial | Proved for accepted calls with DMD models that use the control input exactly if it is given. Negation: with a DMD model that ignores the control input fit succeeds and predict never does; a refused fit without control input, or a refused partial_fit, makes a controlled model unable to predict. With use_transform_inverse=True see C201. |
| C211 Kernels constructed from one dictionary of distance settings | `RadialBasisKernel.__init__`, `BaseManifoldKernel.__init__`, `ContinuousNNKernel.__init__` | `Dist/RadialDictProps` | Dictionaries as lists of entries; the constructor returns the algorithm and the dictionary afterwards. The next outcome depends only on the entry for the metric, so the outcomes of all sequences follow by induction and are compared with a separate description (a kernel is refused iff the one before was accepted with another metric). | partial | Proved for one kernel, for algorithm objects and for any number of kernels with the same metric. Negation: the constructor writes its metric into the dictionary of the caller and removes it when it refuses; in a sequence a kernel is refused exactly if the kernel before was accepted and has another metric (all sequences), repeating a refused call succeeds, and a continuous nearest neighbour kernel silently gets the squared metric of a Gaussian kernel. |
| C212 The density picture shows the density at the place of each pixel | `TSCAccessor.plot_density2d` | `Utils/DensityProps` | The flat mesh (first coordinate fastest), its reshaping and the sums are functions on lists; index arithmetic with quotient and remainder; the smallest and largest value by their characterization. | partial | Proved for equal resolutions. For different resolutions the array is reshaped with exchanged axes: the picture has the wrong shape and the pixels show the density at other points. The array handed to imshow is modelled (row = vertical axis with origin lower); drawing is not modelled. |
| C213 The limit cycle is predicted at the requested time values | `LimitCycle.predict`, `LimitCycle.eval_analytical`, `LimitCycle.eval_finite_differences` | `Utils/CyclePredictProps` | Lists of time values and rows; the differences are characterized by neighbours, the labels by exact arithmetic, the drift by induction over the rows with the rounding as a relation. | partial | Proved for equally spaced time values from 0 on. The labels always start at 0, a shifted request gets the same answer, a single time value is refused. Steps that agree only after rounding drift by at most 1e-10 per row. |
| C214 The sampling interval of floating point time values is the interval of all samples | `TSCDataFrame.delta_time`, `TSCAccessor.normalize_time` | `Tsc/RealDeltaProps` | `Tsc/RealDelta.lean` models both branches with rational time values and the tolerances of the code; the masked differences are shown to be the intervals of the series (as for C11), the minimum is characterized by membership and lower bound, the tolerances are combined by linear arithmetic. | partial | Exact arithmetic. Soundness is proved for series of different lengths and for equal lengths if no series has a first interval longer than all its other intervals. Otherwise the first interval is never compared (times 0, 1.9, 2.9 have the interval 1 and are normalised to 0, 1, 2). A series with one sample beside a longer one makes delta_time raise. |
| C215 System matrix and functions of a learnt dictionary | `FeedforwardNN._augment_id_const`, `FeedforwardNN._compute_system_matrix`, `FeedforwardNN.get_feature_names_out`, `FeedforwardNN.transform`, `FeedforwardNN._intern_FNN` | `Dmd/LearnProps` | `Dmd/Learn.lean`: dictionary as function into `LearnIx`, Gram matrix with regularisation, least squares as relation `IsLstsqM`, names, layer list. `Dmd/LearnProps.lean`: the regularisation is written as additional rows (`Matrix.fromRows`), so the normal equations lemma of C30 applies; the constant function by exchanging one row of the matrix (no regularisation) and by the normal equations (with regularisation); injectivity of decimal numerals for the names. | partial | Proved for every network and all data with ascending IDs or equally long series (C03): the matrix minimises error plus penalty, exists, is unique for a positive regularisation, recovers closed dictionaries and keeps the constant without regularisation; names, columns, layers and number of parameters. The code violates: with a regularisation the constant function (and every other function that is not zero) is mispredicted at some training sample, for all data; n_features_out_ is always too small; the network has one hidden layer more than n_hidden_layer; features called const or psi0 are refused. |
| C216 Training of a learnt dictionary | `FeedforwardNN.fit`, `FeedforwardNN._train_epoch`, `FeedforwardNN._validate_network`, `EarlyStopping` | `Dmd/TrainProps` | `Dmd/Train.lean`: the loop over epochs as recursion over the list of epochs with arbitrary functions for solving, training, validation and scheduling; unassigned local variables as `none`. `Dmd/TrainProps.lean`: `stateAt` gives the variables after e epochs, induction over the remaining epochs; C59 for the stopping rule. | partial | Proved for every optimiser: which settings work, number of epochs, stored network and matrix belong together, records. The code violates: a scheduler without X_val and X_val without scheduler or early stopping (with the default progress bar) always raise UnboundLocalError; a refused call leaves the new network with the old matrix; early stopping never returns the best network; nan losses vanish from the records; the validation loss is computed with the matrix of the previous network. |
| C217 EDMD with a learnt dictionary | `EDMD.fit`, `DMDDictLearning.fit`, `PretrainedDMD.fit`, `EDMD._compute_inverse_map`, `EDMD.transform` | `Edmd/LearnFitProps` | `Edmd/LearnFit.lean` on the transformer objects of `Edmd/RefusedFit.lean`; `Edmd/LearnFitProps.lean`: case analysis of `fit`, induction over the history. | partial | Proved: after the first fit dictionary and matrix belong together, if no states have to be attached. The code violates: no later fit ever changes the system matrix although it retrains the network; with attached states every transform and prediction raises; a network that does not pass the states on is refused after the training, and the model is changed nevertheless. |
| C218 Histories of operations on collections | `TSCAccessor.shift_time_by_delta`, `TSCAccessor.normalize_time`, `TSCAccessor.shift_time_per_time_series`, `TSCDataFrame.insert_ts`, `TSCDataFrame.initial_states`, `TSCDataFrame.__setattr__` | `Tsc/HeapProps` | `Tsc/Heap.lean`: heap of collection objects, one step per call; `Tsc/HeapProps.lean`: invariant by induction over the history, frame lemma, witnesses. | partial | operations of the accessor and the collection over a heap of objects with integer or datetime time values; missing: frames returned by pandas itself. Violated: shifts return the collection itself, insert_ts changes its argument, refused calls leave changes |
| C219 Shifts per time series | `TSCAccessor.shift_time_per_time_series` | `Tsc/HeapProps` | `shiftSeries` of `Tsc/Heap.lean`; `Tsc/HeapProps.lean`: block lemmas of `Edmd/ReconstructLemmas.lean`, witnesses. | partial | for IDs in ascending order along the rows; violated otherwise, and the collection itself is changed |
| C220 Kernel matrices of distinct samples are positive definite | `GaussianKernel`, `InverseMultiquadricKernel`, `InverseQuadraticKernel`, `MultiquadricKernel`, `DiffusionMaps._perform_dmap_embedding`, `GeometricHarmonicsInterpolator` | `Kernel/DefiniteProps` | `Kernel/Radial.lean`, `Kernel/Normalize.lean`, `Kernel/Dmap.lean`: the models of kernels and diffusion maps; `Kernel/DefiniteProps.lean`: the exponential of a Gram matrix as a power series of non-negative forms, whose moments separate distinct points; the inverse kernels as integrals of Gaussian kernels (Gamma function); eigenvalues through the quadratic form; counterexamples with explicit eigenvectors. | partial | Exact arithmetic. Holds for the three families of falling kernels without cut-off; kernels that grow with the distance and kernels with a cut-off violate it. fit of GeometricHarmonicsInterpolator refuses as many eigenpairs as samples, so it never interpolates all targets. |
| C221 Diffusion maps: the coordinates with eigenvalue one are the constant one, as long as all samples are joined | `DiffusionMaps.fit`, `LocalRegressionSelection.fit`, `DmapKernelFixed` | `Kernel/TrivialProps` | `Kernel/TrivialProps.lean`: energy of an eigenvector, the sum of S_ij (v_i - v_j)^2 over all pairs, is zero exactly for eigenvalue one; paths as reflexive-transitive closure; the symmetrised case through the conjugation of C43; the strict bounds through the positive definiteness of C220. | partial | full for kernel matrices whose samples are joined by paths; violated if the samples fall apart (cut-off). The eigensolver is a relation (C136); that eigenvalue one is among the computed ones is a hypothesis of C221_first. |
| C222 Diffusion maps: distances in the embedding follow the diffusion distances | `DiffusionMaps.fit_transform`, `_DmapKernelAlgorithms.solve_eigenproblem`, `DmapKernelFixed` | `Kernel/DiffusionDistProps` | `Kernel/DiffusionDistProps.lean`: the difference of two rows of a power of the Markov matrix, in the basis of the symmetric conjugate, has the eigenvector differences as coefficients; Bessel's inequality and Parseval's identity for lists of orthonormal vectors; uniqueness of the stationary distribution through C221; counterexample with explicit eigenvectors for all bandwidths. | partial | two-sided bounds for every symmetric kernel matrix, equality for doubly stochastic chains; exact proportionality is violated because each eigenvector is normalised to Euclidean length one. Orthonormality of the eigenvectors of the symmetric matrix is the documented behaviour of scipy.linalg.eigh. |
| C223 Diffusion maps with variable bandwidth: normalised eigenpairs, and the same embedding in every unit of length | `DiffusionMapsVariable.fit`, `DiffusionMapsVariable.peq_est_`, `DmapKernelVariable.evaluate` | `Kernel/VariableFitProps` | `Kernel/VariableFit.lean` on `Kernel/Variable.lean`: the end of `fit` and `peq_est_`; `Kernel/VariableFitProps.lean`: the operator of C135 with the energy argument of C221; the scaling law by rescaling the nearest distances, the density and the kernel; counterexamples for all pairs of points. | partial | the claim about the eigenpairs for symmetrize_kernel=True and positive eigenvalues; violated for the default symmetrize_kernel=False; the scaling law in full |
| C224 Writing a collection to a csv file and reading it again gives the collection | `TSCDataFrame.to_csv`, `TSCDataFrame.from_csv` | `Tsc/CsvProps` | `Tsc/Csv.lean`: text of a csv file, reader as state machine, inferred types, names of the header; `Tsc/CsvProps.lean`: reader inverts writer by induction over fields, lines and rows; types of columns; names; exact characterisation of the collections that survive. | partial | the collections that survive are characterised exactly; pandas' writer and reader modelled by their documented behaviour; text of floating point numbers is a parameter |
| C225 Every time series is processed on its own | `TSCTakensEmbedding.transform`, `TSCMovingAverage.transform`, `TSCFiniteDifference.transform`, `TSCApplyLambdas.transform`, `TSCDataFrame.initial_states`, `TSCDataFrame.final_states`, `TSCAccessor.drop_last_n_samples`, `TSCAccessor.time_derivative`, `DMDBase.predict`, `DMDBase.reconstruct` | `Transform/SeriesProps`, `Dmd/SeriesPredictProps` | `Transform/SeriesProps.lean`: selection of IDs commutes with every operation; induction over the rows for heads and tails of groups, blocks of rows for the transformers. `Dmd/SeriesPredictProps.lean`: predictions and reconstructions are determined series by series. | proved | selection as filter of the rows by ID; for transformers the collection is sampled with one interval (any interval for Takens and moving averages, integer or datetime) |
| C226 The reconstruction error of DMD is bounded by the disturbances of the data | `DMDStandard.fit`, `TSCPredictMixin`, `DMDBase.reconstruct` | `Dmd/NoiseProps` | `Dmd/NoiseProps.lean`: the model of C30 (`Dmd/Standard.lean`); prediction from first samples for arbitrary data, telescoping sum of propagated one step errors, Cauchy-Schwarz, comparison of the fitted matrix with any other matrix by the least squares property. | proved | The fit is the relation of C30 (every least squares solution); exact real arithmetic; no sample weights; system matrix mode (by C27 the spectral mode gives the same predictions). |
| C227 The selection of eigenvectors by local regression depends on the eigenvectors only up to sign | `LocalRegressionSelection.fit`, `LocalRegressionSelection.transform` | `Kernel/SelectionFitProps` | `Kernel/SelectionFit.lean`, `Kernel/Selection.lean`: loop over the eigenvectors, residuals, selection; `Kernel/SelectionFitProps.lean`: uniqueness of the intercept of a weighted regression, invariance of the normal equations under diagonal scaling and permutation, median by sorted lists. | proved | Exact arithmetic: the cut-off rcond of the least squares solver is ignored; without subsampling; eps_med_scale > 0; residuals that are nan (an eigenvector of zeros) count as failed fit. |
| C228 The origin of time does not matter | `TSCAccessor.shift_time_by_delta`, `DMDBase._evolve_dmd_system`, `DMDBase.reconstruct`, `InitialCondition.iter_reconstruct_ic`, `TSCTakensEmbedding.transform` | `Dmd/TimeOriginProps` | `Dmd/TimeOriginProps.lean`: every step of the modelled functions is shown to commute with the shift of time values (`movedTime`); the sort keys of the reconstruction groups are mapped strictly monotonically; equivalences follow by shifting back. | proved | The theorems hold for all shifts; the code refuses negative integer time values when the collection is constructed (C119), so for integers only shifts that keep them non-negative can be formed. Integer and datetime time values in exact arithmetic. |
| C229 Systems controlled by LQR reach their target | `LQR.control_sequence`, `LQR._setup_optimizer` | `Mpc/StabilityProps` | Lyapunov argument: completion of squares gives the exact decrease of the Riccati form per step; the summable costs give convergence. | proved | Closed loop with the lifted linear model and one input (with several inputs control_sequence raises, C88); the solver of the Riccati equation is a relation. |
| C230 Out-of-sample values depend continuously on the sample | `DiffusionMaps.transform`, `GeometricHarmonicsInterpolator.predict`, `LaplacianPyramidsInterpolator.predict`, `DmapKernelFixed.__call__` | `Kernel/ContinuityProps` | `Kernel/ContinuityProps.lean`: the rows of the fitted kernel are continuous functions of the query point with positive denominators; averages bound the values; counterexample with one-sided limits for a cut-off. | partial | Proved for dense kernels without cut-off distance; with a cut-off the coordinates jump where a training point enters the neighbourhood. Time exponents other than zero without target coordinates (see C44). |
| C231 The prediction error of EDMD is bounded by the error of the dictionary | `EDMD.predict`, `EDMD.fit`, `DMDStandard.fit` | `Edmd/ErrorProps` | `Edmd/ErrorProps.lean`: telescoping sum over the steps in the dictionary, Cauchy-Schwarz with weights, geometric sums; the training bound uses the minimality of the fit (C30). | proved | Exact real arithmetic; matrix mode (by C84_modes the spectral mode predicts the same); the fit is a relation (every least squares solution). |
| C232 Identification errors are bounded by the disturbances and the excitation of the data | `DMDStandard.fit`, `DMDControl.fit`, `EDMD.fit` | `Dmd/IdentifyProps` | `Dmd/IdentifyProps.lean`: the total error along a line of matrices is a parabola, so least squares solutions satisfy the theorem of Pythagoras; excitation bounds the quadratic form from below; existence of an excitation level by compactness of the unit sphere. | proved | Exact real arithmetic; a fit is any least squares solution (C30, C31); sample weights for DMD without control. |
| C233 IDs are labels | `TSCAccessor.initial_states`, `TSCAccessor.shift_matrices`, `DMDStandard.fit`, `DMDBase.predict`, `DMDBase.reconstruct`, `TSCTakensEmbedding.transform` | `Dmd/LabelProps` | `Dmd/LabelProps.lean`: every modelled function commutes with a strictly monotone renaming of the IDs, as an equation of results and errors; for injective renamings through the specification of the snapshot pairs (C03); concrete counterexample. | partial | Proved for renamings that keep the order of the IDs (results and refusals are equal); for other injective renamings the contents and, with equally long series, the shift matrices. Violated otherwise: exchanging two IDs of series with different lengths changes the snapshot pairs of the fit. |
| C234 Simulations with a control function (feedback) | `ControllableODE.predict`, `TimePredictMixin._validate_and_set_time_values_predict` | `Utils/SimulateFunProps` | The control function is a pair: its value at one (rational) time and state, used by the solver, and its value on stacked times and states. The states follow from the frame list (C125), the control from drop_last_n_samples (C07); vectorised functions are those for which both agree. | partial | Proved for vectorised functions, with an exact description of the accepted calls. Violated: a function that works for single states but returns one row for stacked states (a constant control) is refused after the integration; results are numbered 0..n-1 instead of by the IDs of the initial conditions. Integer sampling times; the solver is a parameter. |
| C235 Richer models fit the training data at least as well | `DMDStandard.fit`, `DMDControl.fit`, `EDMD.fit` | `Dmd/NestedProps` | `Dmd/NestedProps.lean`: least squares problems decouple into the rows of the matrix; padding of coefficients with zeros; normal equations of the spectral states, Pythagoras for the projected snapshots; a witness with three series for exact modes. | partial | Exact arithmetic, no sample weights; least squares, svd and eig are relations. The order of the ranks holds for projected modes (reconstruct_mode='project'); with the default exact modes a higher rank can fit the training data worse (errors 40 and 42.5), because the spectral states are least squares solutions with the modes. |
| C236 Stepwise predictions with control input | `EDMD._predict_stepwise_transform`, `EDMD.predict`, `InitialCondition.validate_control` | `Edmd/StepwiseControlProps` | reduction of the loop to the one without control (C152), one-step prediction from C28; closed dictionaries by induction; error traced to the second iteration | partial | Proved for point-wise dictionaries (one sample per initial condition), IDs increasing along the rows, integer time, matrix mode. Violated for dictionaries with memory (several samples per initial condition): every stepwise prediction with control at three or more time values raises, because the control handed to the second step starts before the state. |
| C237 More delays fit the training data at least as well | `TSCTakensEmbedding`, `EDMD.fit`, `DMDStandard.fit` | `Edmd/MoreDelaysProps` | `Edmd/MoreDelaysProps.lean`: optimality row by row (C235), coefficients of the smaller model as competitor; the windows of the larger embedding are matched with windows of the smaller one, the pairs left over have non-negative errors. | proved | Exact arithmetic; least squares as a relation (every minimiser), integer time. Sums of squared errors; with mean errors the statement would be wrong in general, the larger embedding has fewer training pairs. |
| C238 Without active bounds Koopman MPC is a linear feedback, and that of LQR for long horizons | `KMPC.control_sequence_horizon`, `LQR.control_sequence`, `KMPC` | `Mpc/HorizonProps` | Completion of squares along the Riccati recursion: the cost of any inputs is the value of the recursion plus squares that vanish exactly for the feedback, hence the minimiser found by the program (C39) is the feedback. For the limit the values of the recursion are squeezed: from above by the cost of the LQR feedback, whose running costs are summable, from below because along the optimal trajectory some state has a running cost of at most c/N; the matrices converge by polarisation and the gain by continuity of the inverse. | proved | real arithmetic; the quadratic program is any solution of the solver; the reference belongs to a state at which the uncontrolled model rests (as for LQR in C88). LQR itself only handles one input (C88), its formula is compared for any number |
| C239 Small changes of the measured state or the reference change the inputs of Koopman MPC little | `KMPC`, `KMPC.control_sequence_horizon` | `Mpc/SensitivityProps` | Along the segment from the optimal to any other admissible input sequence the cost is a parabola, so the other costs more by at least the weighted squared distance of inputs and predictions. Adding this for both questions leaves a mixed product of the change of predictions and the change of the free tracking error, which is bounded by squares. | proved | real arithmetic; every solution of the program. With state bounds only changes of the reference are covered, as stated |
| C240 The closed loop of Koopman MPC reaches its target | `KMPC.control_system_reference`, `KMPC.control_sequence_horizon` | `Mpc/RecedingProps` | Lyapunov functions: with decreasing terminal weights the values of the Riccati recursion decrease in the number of steps, so the value of the horizon decreases along the closed loop by the running cost; for long horizons the gain is close to that of LQR (C238), and the solution of the Riccati equation decreases by at least half of the running cost. Summable running costs tend to zero. The negation is the explicit closed loop z' = 15/14 z of an unstable scalar model with horizon two. | partial | violated for short horizons with terminal weights that do not decrease: the closed loop can run away although no bound is active. Proved for terminal weights that decrease and for long horizons |
| C241 Errors do not depend on the units of the features | `TSCMetric.__call__`, `TSCMetric._scaling`, `TSCMetric._rrmse_metric` | `Tsc/UnitsProps` | the call is rewritten as an evaluation on blocks that commutes with maps of the values; affine behaviour of minimum, maximum, mean, variance, median and weighted averages; witnesses with a constant feature and with small values | partial | The absolute metrics scale with the unit. The result with learned scaling is the same in all units if every feature varies in the true values, but not for constant features; rrmse agrees in all units in which it is returned, but is refused in units in which the data is small. Negative factors and mape are not treated. |
| C242 Koopman MPC with bounds keeps finding inputs | `KMPC.control_system_reference`, `KMPC.control_sequence_horizon`, `KMPC._create_constraint_matrices` | `Mpc/FeasibleProps` | shifted input sequences along the inductively defined states of the closed loop; existence of solutions (C39) and the meaning of the constraints (C40); witness: an unstable system with horizon 2 | partial | A call is answered exactly if the bounds can be respected over the horizon. The loop never stops without state bounds, with bounds that can be kept, or with a horizon that sees all dead ends; in general a controller with state bounds can run into a state from which every call is refused, because the quadratic program has no terminal constraint. The loop is that of controller and linear model. |
| C243 Scores by time series, by time step and by feature | `TSCScoring.__call__`, `TSCMetric._metric_per_timeseries`, `TSCMetric._metric_per_timestep`, `TSCMetric._metric_per_feature` | `Tsc/ModesProps` | means over the blocks of a partition by a key; exchange of means over features and blocks; counting of the rows with one time value | proved | Both parts are proved for all scalings. Without the assumption on lengths and time values the modes disagree (C243_lengths_matter): a short time series weighs more than its samples. |
| C244 Errors are distances | `TSCMetric.__call__`, `TSCScoring.__call__` | `Tsc/DistanceProps` | Collections with the same index are the components of one collection of tuples; index operations and weights commute with taking components; Minkowski's inequality for lists by induction; monotony of means; witnesses with three samples. | partial | Symmetry holds for the absolute errors without scaling, the triangle inequality for rmse, mae, max, l2 and linf with weights that are not negative. The violations show that mse and medae have no triangle inequality, and that with a scaling or with the relative errors the order of the collections matters. |
| C245 Predictions of linear models superpose | `DMDBase.predict`, `SystemSolveStrategy.flowmap_matrix`, `SystemSolveStrategy.flowmap_matrix_controlled` | `Dyn/SuperpositionProps` | Two collections with the same index are the components of one collection of pairs; prediction, control validation and the control loop commute with every linear function of the pair. | proved | Exact arithmetic; flow map systems in matrix mode at multiples of the sampling interval. |
| C246 Long predictions stay bounded if no eigenvalue is larger than one | `DMDBase.predict`, `SystemSolveStrategy.flowmap_spectral`, `SystemSolveStrategy.flowmap_matrix`, `SystemSolveStrategy.differential_spectral` | `Dyn/StabilityProps` | Rows of predictions are states of the flow map; triangle inequality over the modes; change to the basis of eigenvectors; Gelfand's formula for matrices which cannot be diagonalised; the powers of a shear by induction. | partial | Boundedness in spectral mode (flow map and differential systems) and for diagonalisable matrices; decay for all matrices. Matrix mode with a matrix that cannot be diagonalised: the predictions of a shear grow without bound although its only eigenvalue is 1 (C246_violated). |
| C247 Diffusion maps: equal samples get equal coordinates, distinct samples distinct ones | `DiffusionMaps.fit_transform`, `DiffusionMaps.transform`, `GeometricHarmonicsInterpolator.predict` | `Kernel/DuplicateProps` | Rows of the normalised kernel depend on the sample only and transform equals fit_transform at the training samples (C44); Parseval's identity for a full set of orthonormal eigenvectors; positive eigenvalues (C220). | partial | Equal coordinates if no eigenvalue is zero. C247_violated holds for all data with a repeated sample: with all eigenpairs an eigenvalue is zero, a coordinate separates the equal samples and transform refuses every sample. |
| C248 Linear quantities conserved by the data are conserved by the model | `DMDStandard.fit`, `DMDBase.predict`, `EDMD.predict` | `Edmd/ConservedProps` | Removing from a matrix the part of its predictions that changes the quantity wrongly lowers the weighted sum of squares (C30) by a sum of squares, so a minimiser has no such part at the samples, hence on their span; induction over the steps. For EDMD the quantity is carried to the dictionary space by the inverse map. | partial | One step for all data; predictions if the samples (dictionary values) with a successor span the space. C248_violated: for two samples that conserve the sum of the features the model taken by the code predicts the sums 1, 1, 0. |
| C249 EDMD with a delay embedding is the autoregressive model fitted by least squares | `EDMD.fit`, `EDMD.predict`, `TSCTakensEmbedding.transform`, `DMDStandard.fit` | `Edmd/AutoregressiveProps` | The one-step errors of a system matrix are sums over the windows (C237); the companion matrix of autoregressive coefficients has exactly the errors of the autoregressive model in the first block and none in the others, so its coefficients are least squares solutions together with the matrix; two least squares solutions agree on the span of the samples; predictions of a companion matrix are the recurrence (C190). | proved | Exact arithmetic; lag 0, consecutive delays, no weights, at least one delay; full rank least squares DMD model, predictions in matrix mode. |
| C250 EDMD with the states and a constant is the affine model fitted by least squares, and does not depend on the origin | `EDMD.fit`, `EDMD.predict`, `TSCIdentity`, `DMDStandard.fit` | `Edmd/AffineModelProps` | The errors of a system matrix split into those of the state features, which are the errors of the affine model, and that of the constant, which an affine model predicts without error; two least squares solutions agree at the samples (C249); iterates of the affine step commute with shifts. | proved | Exact arithmetic; full rank least squares DMD model, predictions in matrix mode. C250_violated proves the last sentence, that DMD without the constant depends on the origin. |
| C251 The unit of time does not matter | `TSCDataFrame.delta_time`, `TSCDataFrame.is_const_delta_time`, `DMDBase._evolve_dmd_system`, `DMDStandard.fit`, `DMDControl.fit`, `TSCAccessor.time_derivative` | `Dmd/TimeUnitProps` | `Dmd/TimeUnitProps.lean`: every step commutes with the multiplication of time values by a positive integer, a strictly monotone map; the tolerances of `np.allclose` on integers reduce to a purely relative condition; equality of results including failures is carried through `build`, `from_tensor` and the frame around the solver as equality of optional values. | partial | Proved for integer and datetime time values in exact arithmetic and for positive integer factors. For floating point time values (exact rationals in the model) it holds for data sampled with exactly one interval; C251_violated: because of the absolute tolerance in delta_time, unevenly sampled data count as evenly sampled in a unit that is large enough. |
| C252 Inputs of Koopman MPC depend on the ratios of the weights only, not on coordinates of the dictionary or on origin and unit of time | `KMPC.control_sequence_horizon`, `KMPC._setup_optimizer`, `KMPC._create_cost_matrices`, `KMPC._create_evolution_matrices` | `Mpc/WeightProps` | `Mpc/WeightProps.lean`: the stored matrices are multiplied by the factor and the objective with them, the constraints stay; the stacked matrices C A^i B and C A^(i+1) z are the same for a model to which the given one is carried, hence the program; time values pass through unchanged. | proved | Exact arithmetic; the quadratic program solver is a relation (any solution). C252_time is stated for returned inputs; refusals compare the first reference time with the time of the state plus the sampling interval and are covered by the equivalence. |
| C253 Time values are taken for sorted exactly if they are, whatever their number type | `TSCDataFrame._validate_index` | `Tsc/IndexNumProps` | `Tsc/IndexNum.lean`: the check of C01 with differences in 64 bit arithmetic (floor of the quotient by 2^64); agreement with the exact check where nothing wraps around; computation of the wrapped difference elsewhere. | partial | Holds for signed integers, floating point numbers and datetimes less than 146 years away from 1970, without missing values. With unsigned integers every order is accepted (C253_unsigned_violated, for all collections); datetimes more than 292 years apart are refused (C253_far_violated); NaT behind a datetime after 1970 is accepted (C253_missing_violated). C01 subtracts time values exactly and states nothing about missing ones. |
| C254 Balances of linear quantities with control inputs are kept by the model | `DMDControl.fit`, `DMDBase.predict` | `Dmd/BalanceProps` | As C248 for the stacked system of states and inputs (C31): removing from [A B] the part that violates the balance lowers the sum of squares by a sum of squares; linearity on the span; steps of controlled predictions (C28). | proved | Exact arithmetic; the pseudo-inverse is a relation (any least squares solution). Flow is zero for r = 0. |
| C255 Floating point time values are finite numbers | `TSCDataFrame._validate_index`, `TSCDataFrame` | `Tsc/FloatIndexProps` | `Tsc/FloatIndex.lean`: the checks of C01 on floating point numbers with nan and infinities; without nan reduction to the typed constructor (C01) over the numbers with a top element; induction over the rows for nan. | partial | Without nan: accepted iff valid in the order of the numbers with infinity and not negative; so an infinite time value passes, but only at the end of a series (C255_infinite_violated, C255_infinite_last). One nan per series passes at any place, and then the values before it are not compared with those behind it (C255_nan_violated). Negative infinity is refused. |
| C256 assign_ids_const_delta with drop_samples never drops equally spaced samples | `TSCAccessor.assign_ids_const_delta` | `Tsc/KeptProps`, `Tsc/KeptRegularProps` | The indicator of new series (Folds.lean, ConstDeltaProps.lean): of three equally spaced samples each has a neighbour in its piece, so its ID is counted at least twice, at least three samples are kept and the rule that drops a remainder of two does not apply; induction over the loop over the series. | proved | Integer time values. C256_three is the case in which the code drops two samples with one interval. |
| C257 assign_ids_const_delta without drop_samples raises exactly for isolated samples | `TSCAccessor.assign_ids_const_delta` | `Tsc/IsolatedProps`, `Tsc/KeptRegularProps` | A piece with one sample is a position where a new series starts and another one starts right behind it; with the closed form of the indicator (C17) this is the stated condition on the intervals; induction over the loop over the series. | proved | Integer time values (also datetimes as integers). |

## Where code and documented behaviour disagree

Found while modelling; each is the content of a theorem (named in `MANIFEST.json` under the property) unless marked *(not modelled)*.

* **Collections.** NaN time values are accepted (C01, C255), and infinite ones at the end of a series (C255). With unsigned integers as time values every order is accepted, NaT behind a datetime after 1970 is accepted, and datetimes of one series more than 292 years apart are refused, because differences wrap around (C253). `shift_matrices`, `shift_time_per_time_series`, `expand_time_values`,
  `feature_to_array`, window folds and controlled predictions rely on IDs being sorted along the index, which is not required (C03, C72, C85, C120, C121, C130).
  `delta_time` of datetimes and of very large steps reports a constant interval for irregular series (C11, C62). `shift_time_by_delta`, `insert_ts` and the Takens embedding
  change the caller's object (C68, C119, C126). `assign_ids_const_delta` drops the last two of three irregular samples (C256). `fill_timeseries_with_last_state` works for ID 0 only (C122); `augment_control_input` rejects a first ID of 1 (C124).
* **Metrics.** `medae` and errors scaled with `l2_normalize` vanish for wrong predictions (C63); feature weights are rejected or ignored (C117); `rrmse` divides a mean by a sum (C118).
* **Transformers.** Advertised names differ from returned columns (C65); the fitted inverse matrix of the radial basis is kept after a refit (C131).
  Scalers and principal components that were fitted to arrays cannot map back (C162, C163); scalers map back columns with any labels (C162); principal components after a second fit (C163);
  selection by names always raises (C164); Fourier features and sampled networks cannot be fitted (C165).
* **Linear systems and DMD.** Control input ignored in matrix mode of differential systems (C25); spacing of requested time values ignored under control (C73); arrays of
  control input rejected (C76); the residual filter tests modes instead of eigenfunctions (C79); default start and rank deficient start of `OnlineDMD` (C32); `StreamingDMD` keeps
  the smallest directions and loses a pair of samples (C33, C82).
  Models in matrix mode cannot be fitted twice and stay half set up after a rejected control matrix (C147); default feature names (C148); maps with control (C149).
* **EDMD.** Columns mislabelled for selections in another order (C34); predictions written to other series (C35); `include_id_state` (C36); inverse map (C83); the argument stays shifted after exceptions (C86);
  reconstruction with control raises unless all series start at zero and have equal lengths, the score of windows never passes the control input (C151); dropped samples (C150);
  stepwise prediction of a single time value raises (C152); short series are left out by moving averages in the dictionary (C155); scaled values are returned as states (C156); `n_features_out_` of a column transformer raises if a column is dropped (C158); the grid search ignores the score function attached by `adapt_model` (C157).
* **MPC.** Documented order of bounds is infeasible (C40); terminal cost zero replaced (C39); gradients (C41); quantities of interest (C87); several inputs in LQR (C88); the closed loop raises without attached control input and stops one sample before the end of the reference (C154).
* **Kernels and diffusion maps.** C44, C46, C56, C57, C90, C92, C93, C95, C97-C99, C101, C103, C112, C133-C136 as described in the table.
* **Distances and point clouds.** C48-C53, C105-C108 as described in the table.
* **Laplacian pyramids.** Hard-coded threshold 1e-15 (C54); fit does not end for coinciding points with different targets and for constant targets in the auto-adaptive mode (C109).
* **Benchmarks and simulations.** Late bound control channel (C60); fourth Runge-Kutta stage (C61); IDs and start times (C138, C139, C234); control functions that are not vectorised (C234); C140-C143, C145, C146.
* **Validation.** A plain frame passes where a numpy array is required, the number of features of a collection is not checked (C159).
* **Jointly smooth functions.** `transform` rescales the functions (C112, C161).
* *(not modelled)* `JointlySmoothFunctions._compute_truncated_energies` and `compute_E0` index with the wrong shapes; `Burger1DPeriodicBoundary._jac` reads an attribute that does not exist.
* **Control-affine DMD.** `gDMDAffine` selects samples by the time values of all series; series over different intervals raise a shape error (C166).
* **Residual filter.** The threshold 0 raises, `keep_n` keeps ties, `fit` overwrites the parameter (C167); residuals of complex eigenvalues are those of the conjugate eigenvalue, true oscillations are removed without a rank (C168).
* **Pseudospectrum and spectral measure.** Pseudo eigenfunctions are not transformed back (C169); missing matrices, wrong exception, stale matrices (C170); `Z` used for its transpose, argument overwritten (C171).
* **Fixed sampling interval.** `time_interval(id)`, `normalize_time`, selected frames and the display do not respect `fixed_delta` (C172).
* **Control-affine MPC.** The cache of the lifted state holds a reference to the array of the caller and is stale after an update in place (C173); the reference at the last time has no effect on the Jacobian (C174).
* **Selecting rows.** A condition that no row meets raises an `IndexError`; selections in another order raise instead of falling back to a `DataFrame`; a list of numbers cannot be assigned (C175).
* **Order of the IDs.** Because `shift_matrices` pairs snapshots of different series if IDs do not ascend and lengths differ (C03), `DMDStandard`, `DMDControl` and `EDMD` then fit a wrong model to exact data (C30, C31, C84); exchanging two IDs changes the model (C233).
* **Scores and wrappers of DMD models.** `score` raises for `PretrainedDMD`, `DMDControl`, `gDMDAffine`, `StreamingDMD` and `OnlineDMD`; for the others it raises if the series are not stored by start and end time, even if they are reconstructed exactly (C176). `PretrainedDMD` raises for singular matrices with left eigenvectors and accepts data of a wrong dimension in `fit`; `PyDMDWrapper("dmdc")` can never predict (C177).
* **Error observables and HAVOK.** `EDMDPostObservable.fit_transform` always raises (missing argument `U`), and keeps the initial states of all but the first series in the error time series (C178). `HAVOK.fit_predict` always raises (shape of the forcing signal) (C179); by inspection, `rank=None`, the default, cannot be fitted (`range(None)`).
* **Gradient and Mahalanobis kernel.** `GeometricHarmonicsInterpolator.gradient` has the wrong sign, scale and weights (C180). `MahalanobisKernel` has a zero diagonal for dense distances, half the value for pairs stored once, and ignores the query points (C181).
* **Threshold of jointly smooth functions.** With three or more splits `compute_E0` ignores the shuffled split; `score_` returns `dict_values` (C182).
* **Score of EDMD.** The mislabelled rows of `reconstruct` (C35) enter `score`: a model that is exact for every series alone has a negative score for a longer series followed by a shorter one (C183).
* **Meaning of the initial condition.** In `evolve_system` it is the state at time zero without control, the state at `time_values[0]` with control (C185).
* **Finite difference transformer.** `TSCFiniteDifference(spacing=<number>).fit` always raises a `TypeError` (`check_scalar` is called without `name`); `partial_fit` of a fitted transformer does not look at the data (C186).
* **Jointly smooth functions of frames and arrays.** `JointlySmoothFunctions.fit` always raises for a `pandas.DataFrame`; for arrays fewer functions than requested (even none) are returned without notice, and `transform` then raises (C187).
* **Distance of the continuous nearest neighbour kernel.** `ContinuousNNKernel` refuses the dense distance algorithm, drops `kmin` of a dictionary, changes the dictionary of the caller, and raises an `AttributeError` instead of the intended exceptions (C188).
* **Histories of kernel objects.** A refused evaluation of a `DmapKernelFixed` fixes the callable bandwidth of its Gaussian kernel; `DmapKernelFixed.evaluate` drops `is_pdist` for the internal kernel, so that it never accepts pair-wise distances for a `ContinuousNNKernel` (C189).
* **Distance objects.** `is_sparse` is `True` without a cut-off although arrays are returned; `kmin=0` is rejected; a one-dimensional array is `n` reference points but one query point (C197).
* **Meshes and eigenvectors.** `generate_2d_regular_mesh` with one value on an axis lies on the lower side of the box; `assert_equal_eigenvectors` ignores the columns beyond those of the narrower matrix (C198).
* **Shift matrices of complex arrays.** `from_shift_matrices` copies into an array of floats, so that imaginary parts are lost; `snapshot_orientation="Col"` is accepted by `from_shift_matrices` but refused by `shift_matrices` (C04).
* **Negative number of samples.** `drop_last_n_samples(-k)` is accepted and keeps only the first `k` samples of each series (C07).
* **Tolerance of `delta_time`.** For intervals of 10¹² and more different intervals count as equal: `normalize_time` moves samples (C12), initial conditions with another interval than the required one are accepted (C127). `time_derivative` accepts series with different intervals and differentiates with the first one (C128).
* **Parameters fixed in the constructor.** `LinearDynamicalSystem.__init__` selects the solver, so `set_params(sys_mode=…)` on `DMDStandard`, `gDMDFull`, `DMDControl` and `PretrainedDMD` leaves the solver of the old mode (predictions are wrong without an error); so does `set_params(approx_generator=…)`. `DMDControl` ignores unknown keywords. `PyDMDWrapper` loses its additional parameters in `clone`. `DiffusionMapsVariable` does not store `symmetrize_kernel`, so `get_params`, `set_params` and `clone` raise. `EDMD.set_params(dict_steps=…)` does not change the steps, `set_params(dmd_model=…)` raises, and the clone after `set_params(<step>=…)` has the old step (C199).
* **Multi-scale geometric harmonics.** The error is measured only on the 300 computed eigenvectors; `argmax` of an array without `True` gives 0 eigenvectors, so with the default `condition=1.0`, or when all eigenvalues are well conditioned, `fit` never ends unless the target is small; `__call__` reads `_row_sums_alpha`, which no method sets (C200).
* **`EDMD(use_transform_inverse=True)` cannot predict with attached states or control.** With the default `include_id_state=True` the original states stay in the frame that is given to `inverse_transform` of the last transformer, which rejects it; `U` is not passed to the DMD model, so controlled models fail on `None` (C201).
* **`InvertedPendulum2` ignores its parameters.** Masses, gain, length and friction are stored, but `_f` uses local constants (C202).
* **`ContinuousNNKernel` accepts other reference points.** A component-wise evaluation compares only the number of reference points with that of the first evaluation; other points are combined with the neighbour distances of the first ones (C203).
* **Online EDMD mixes coordinates.** `_partial_fit` updates a transformer and maps only the new batch with it; with `TSCIncrementalPCA` earlier batches stay in the DMD model in their old coordinates (C204). With the default start of `OnlineDMD` the Koopman matrix is never exact, even for exact data (C204).
* **nan passes the checks of ranges.** `alpha=nan` in `DiffusionMaps`, `weighting=nan` in `OnlineDMD` and `incr_basis_tol=nan` in `StreamingDMD` are accepted, since `check_scalar` only raises if a comparison is true (C205).
* **Integers and floats of numpy are refused by some models.** `Roseland(landmarks=np.int64(5))` and `np.float32` raise a `TypeError`, so does a numpy integer as `rank` of `DMDStandard`; `DiffusionMaps(n_eigenpairs=np.int64(5))` is accepted. `StreamingDMD(incr_basis_tol=0)` raises, `0.0` does not (C205).
* **Shared default kernel.** The class methods `laplace_beltrami`, `fokker_planck` and `graph_laplacian` have a kernel object as default argument: `set_params(kernel__epsilon=…)` on one model changes all models made by the same class method (C205).
* **Sample weights of DMD are weights of pairs.** `DMDStandard.fit(X, sample_weights=w)` needs one weight per pair of consecutive samples (or a single one); one weight per sample always fails in numpy's broadcasting. Negative weights are accepted silently and can give the matrix with the *largest* weighted error (C206).
* **Geometric harmonics (and Roseland) work on the kernel object of the user.** `DiffusionMaps` and `JointlySmoothFunctions` copy the kernel, `GeometricHarmonicsInterpolator.fit` wraps `self.kernel` itself: changing the bandwidth of the kernel object changes the predictions of the fitted model, a callable bandwidth is overwritten by the number for the first data (a second fit uses it), and a `ContinuousNNKernel` is accepted by one fit only (C207).
* **Refused fits leave mixtures.** If the eigenproblem of a second fit fails, the new kernel matrix is combined with the old eigenpairs; `JointlySmoothFunctions.fit` stores `X_fit_` before it checks its parameters and evaluates the kernel, so that after a refusal the old kernel and eigenvectors are combined with the new data (C208).
* **A refused `EDMD.fit` leaves a mixture.** The transformers of the dictionary are fitted in place before the DMD model is fitted; if the DMD model refuses (for example a misspelled `dmd__` parameter), `transform` is the new one while the system, `_inverse_map` and the Koopman modes are the old ones; predictions change without an error. If the inverse map is refused the system is already the new one. The first call of `fit` excludes `partial_fit` for ever, even if it is refused (C209).
* **`EDMD.fit(X, U=U)` with a DMD model that ignores `U` cannot predict.** `DMDStandard.fit` ignores `U`, but EDMD sets `is_controlled_`, so `predict` needs `U` and then fails on the missing `control_names_in_`. `partial_fit` on a model fitted with `fit` sets `is_controlled_ = False` before its assertion fails: a controlled model cannot predict afterwards (C210).
* **Radial basis kernels change the dictionary `distance` of the caller.** The constructor pops the entry `metric` and writes its own: the same dictionary is refused by the next kernel with another metric; the refusal has removed the entry, so the same call again succeeds (also if the caller had asked for another metric). A `ContinuousNNKernel` that gets the dictionary of a Gaussian kernel silently uses squared distances (C211).
* **`plot_density2d` exchanges the axes.** The mesh values are reshaped to `(xresolution, yresolution)` although the mesh has `yresolution` rows; with different resolutions the picture is scrambled (C212).
* **`LimitCycle.predict` ignores the start of `t_eval`.** The index of the result always starts at 0, so requested time values that start elsewhere get wrong labels; a single time value fails an assertion (C213).
* **`delta_time` of floating point time values does not look at the first interval.** For series of equal length the smallest interval is compared with `diff_times[:, 1:]`: a series at 0, 5, 6, 7 has `delta_time` 1, `is_const_delta_time()` is true, and `normalize_time` moves samples (0, 1.9, 2.9 become 0, 1, 2) (C214).
* **`delta_time` raises for a short floating point series beside a longer one.** With different lengths `np.min` is called with the empty array of differences of a series with one sample; the same integer time values give nan for this series (C214).
* **A regularised learnt dictionary does not keep the constant.** `sys_regularization > 0` also penalises the row of the constant function; for every data set it is mispredicted at some training sample (C215).
* **`n_features_out_` of `FeedforwardNN`** is `n_dict_elements`, the transformed data have at least one column more (C215).
* **`n_hidden_layer`** is documented as the number of hidden layers; the network has `n_hidden_layer + 1` (C215).
* **A learning rate scheduler without `X_val`** always raises `UnboundLocalError` (`Xtorch_val`), also for schedulers that do not look at a loss (C216).
* **`X_val` without early stopping and scheduler** is announced as superfluous by a warning, and raises `UnboundLocalError` (`current_val_loss`) with the default `with_tqdm=True` (C216).
* **Early stopping keeps the last network, not the best one**; the recorded validation loss combines the new network with the old system matrix; `nan` losses disappear from the records (C216).
* **A second `fit` of EDMD with a learnt dictionary** retrains the network and keeps the system matrix of the first one, since `PretrainedDMD.fit` does not look at the data (C217).
* **EDMD with a learnt dictionary and attached states**: the network is trained with the states attached and used without them, so every `transform` and `predict` after the fit raises (C217).
* **Shifts of time values return the collection itself**: after `Y = X.tsc.shift_time_by_delta(s)` the names `X` and `Y` denote one object, further shifts of `Y` change `X` (C218).
* **`X.insert_ts(X)`** always raises, after `X` itself got the ID of the new time series; `normalize_time` can raise after the index was changed (C218).
* **`shift_time_per_time_series` with shift values** moves the wrong time series if the IDs do not ascend along the rows, and parts of a time series differently if the lengths differ (C219).
* **Diffusion maps accept kernels that are not positive semi-definite.** With a multiquadric kernel (any bandwidth, any two distinct samples) or with a cut-off the stochastic kernel has negative eigenvalues, and the embedding with a fractional `time_exponent` is `nan` without any check (C220).
* **With a cut-off that separates the samples the trivial coordinate is not unique.** `LocalRegressionSelection` ignores the eigenvector of index 0 as "the const (trivial) eigenvector" (`dmap.py` 1582). If two samples are not joined by a path of positive kernel values, a coordinate that is not constant has the same eigenvalue one, and an eigensolver may return it first (C221).
* **Embedding distances are not diffusion distances.** `solve_eigenproblem` normalises each eigenvector to Euclidean length one (`dmap.py` 94) instead of length one with respect to the stationary distribution, so that even with all eigenpairs the distances between embedded samples are not proportional to the diffusion distances unless the stationary distribution is uniform; only bounds hold (C222).
* **`DiffusionMapsVariable` with the default `symmetrize_kernel=False`.** The kernel is not divided by its row sums, so that the constant eigenvector has an eigenvalue other than one, other eigenvalues are negative, and the power `1/epsilon` of `eigenvalues_` is `nan` for most values of `epsilon` without any message (`dmap.py` 781-783, C223).
* **Geometric harmonics never interpolate.** `fit` accepts at most `n_samples - 1` eigenpairs, although the eigensolver handles `n_samples`; for every accepted number there is a non-zero target that is predicted to be zero at all training samples. The bound of the check looks like a mistake: `DiffusionMaps` accepts all eigenpairs (C220).
* **`from_csv` does not read every collection that `to_csv` writes.** Dates as time values and complex values come back as texts and are refused, integers as feature names come back as texts, and features named `time` or `ID` or with an empty name are renamed; `from_csv` passes no converters (C224).
* **A cut-off distance makes out-of-sample embeddings jump.** With a stochastic kernel and `cut_off`, every coordinate that distinguishes two training points is discontinuous where one of them enters the neighbourhood of the sample (C230).
* **Dead code.** `Burger1DPeriodicBoundary._jac` (`_systems.py` 980-1009) is never called and reads the attribute `d_dx` that no method sets (not modelled).
* **A higher rank can fit worse.** With the default exact modes of `DMDStandard` a model of higher rank can predict the training data one step ahead worse than one of lower rank (squared errors 42.5 for rank 2 and 40 for rank 1 in the example), because the spectral states are least squares solutions with modes outside the span of the singular vectors; with `reconstruct_mode='project'` the order holds (C235).
* **Documented name of a mode is refused.** The class documentation of `DMDStandard` calls the second mode `projected` (`dmd.py` 608); the validation accepts only `exact` and `project` (706, 1252), as the description of the parameter says (read from the text, no theorem).
* **Stepwise predictions with control and memory always raise.** `_predict_stepwise_transform` hands the control states at the time values of all `n_samples_ic_` samples of the window to the step, but the DMD model expects one control state at the time of the last sample. With two or more samples per initial condition (e.g. Takens embedding), which `fit` supports with control, every prediction at three or more time values raises (C236).
* **A short horizon can destabilise.** For `z' = 2z + u` with running and terminal weight 1, input weight 5 and horizon 2, the closed loop of `KMPC` runs away from the target although no bound is active, `z' = 15/14 z`; the documentation of `horizon` and `cost_terminal` does not warn (C240).
* **Relative errors that depend on units.** `rrmse` raises an error if the sum of squares of the true values is at most 1e-14, an absolute threshold: data that is accepted in one unit is refused in a larger unit. With the scalings min-max and standard a feature that is constant in the true values is not scaled, so the metric depends on its unit (C241).
* **Dead ends of the controller.** The quadratic program of `KMPC` bounds the predicted states over the horizon only. A controller with state bounds can choose (even be forced to choose) inputs that lead to a state from which no inputs respect the bounds; `control_system_reference` then raises in the middle of the loop and the states and inputs collected so far are lost (C242).
* **Models of data that do not span the state space depend on the coordinates.** `DMDStandard` takes the least squares solution of smallest norm. For data on a line through the origin, a shear of the coordinates (for instance replacing a feature by a sum of features) gives another model, with other predictions for states off that line. The code only warns that the matrix has no full rank (C196).
* **Repeated samples and all eigenpairs.** `DiffusionMaps` accepts as many eigenpairs as samples. If a sample is repeated, one eigenvalue is zero (in exact arithmetic): `fit_transform` then separates equal samples by an arbitrary coordinate, and `transform` divides by zero for every sample (C247).
* **Conserved quantities lost outside the span of the data.** The least squares solution of smallest norm maps states orthogonal to the training samples to zero. The last sample of a time series can be such a state: for the series (1, 0), (0, 1), which conserves the sum, the prediction from (1, 0) is (0, 1) and then (0, 0) (C248).
* **Absolute tolerance for sampling intervals.** `delta_time` treats intervals as equal if they differ by less than 1e-16, whatever their size. With floating point time values in a large unit (for example processes in femtoseconds written in seconds) unevenly sampled series are reported as evenly sampled, and `fit` accepts them (C251).

## Which parts of the code are modelled

Generated from the citations in the comments of the model: a function is listed as modelled if a definition cites lines of it. The comments say which part of the function is modelled and what is simplified. Everything listed under "not modelled" plays no role in any theorem.

### `datafold/_decorators.py`

Not modelled: `warning_format`, `warn_known_bug`, `warn_experimental_function`, `warn_experimental_class`

### `datafold/_version.py`

Not modelled: `show_versions`, `Version.print_version`

### `datafold/appfold/edmd.py`

Modelled: `EDMD.__init__` (Edmd/RefusedFit, Utils/Params); `EDMD.dmd_model` (Edmd/RefusedFit, Utils/Params); `EDMD.koopman_eigenvalues` (Edmd/Stepwise); `EDMD.koopman_eigenfunction` (Edmd/Stepwise); `EDMD._set_dict_preserves_id_state` (Edmd/Dictionary); `EDMD._compute_n_samples_ic` (Edmd/Dictionary); `EDMD._least_squares_inverse_map` (Edmd/ControlDelay, Edmd/Delay, Edmd/PostObservable, Edmd/Predict); `EDMD._compute_inverse_map` (Edmd/ControlDelay, Edmd/Delay, Edmd/Dictionary, Edmd/LearnFit, Edmd/Predict, Edmd/RefusedFit); `EDMD._compute_koopman_modes` (Edmd/RefusedFit); `EDMD._sort_koopman_triplets` (Edmd/Predict); `EDMD._attach_id_state` (Edmd/Dictionary, Edmd/Predict); `EDMD._partial_fit` (Edmd/OnlineFit); `EDMD._reconstruct` (Edmd/Reconstruct, Edmd/Window); `EDMD._predict_dict_ic` (Edmd/ControlDelay, Edmd/Delay, Edmd/Predict, Edmd/StepwiseControl, Edmd/TransformInverse); `EDMD._predict_stepwise_transform` (Edmd/Stepwise, Edmd/StepwiseControl); `EDMD.fit` (Edmd/ControlDelay, Edmd/Delay, Edmd/Dictionary, Edmd/LearnFit, Edmd/Predict, Edmd/RefusedFit); `EDMD.predict` (Dyn/TimeValues, Edmd/ControlDelay, Edmd/Delay, Edmd/LearnFit, Edmd/Predict, Edmd/RefusedFit, Edmd/StepwiseControl, Edmd/TransformInverse); `EDMD.fit_predict` (Edmd/Predict); `EDMD.__getitem__` (Edmd/Score); `EDMD.partial_fit` (Edmd/OnlineFit, Edmd/Predict, Edmd/RefusedFit); `EDMD.transform` (Edmd/Dictionary, Edmd/LearnFit, Edmd/RefusedFit); `EDMD.fit_transform` (Edmd/Dictionary); `EDMD.reconstruct` (Edmd/Score); `EDMD.inverse_transform` (Edmd/Dictionary, Edmd/TransformInverse); `EDMD.score` (Edmd/Score); `_fit_and_score_edmd` (Edmd/GridSearch); `EDMDCV.__init__` (Edmd/GridSearch, Utils/Params); `EDMDCV._validate_settings_edmd` (Edmd/GridSearch); `EDMDCV.fit` (Edmd/GridSearch); `EDMDWindowPrediction.__init__` (Edmd/Window); `EDMDWindowPrediction._validate` (Edmd/Window); `EDMDWindowPrediction._window_reconstruct` (Edmd/Window); `EDMDWindowPrediction._window_score` (Edmd/Window); `EDMDWindowPrediction.adapt_model` (Edmd/GridSearch, Edmd/Window); `EDMDPostObservable._adapt_edmd_model` (Edmd/PostObservable); `EDMDPostObservable._compute_err_timeseries` (Edmd/PostObservable); `EDMDPostObservable._validate` (Edmd/PostObservable); `EDMDPostObservable._run_cv` (Edmd/PostObservable); `EDMDPostObservable.fit_transform` (Edmd/PostObservable); `HAVOK.transform` (Edmd/PostObservable); `HAVOK.fit` (Edmd/PostObservable); `HAVOK.fit_predict` (Edmd/PostObservable)

Not modelled: `EDMD.koopman_modes`, `EDMD.n_features_out_`, `EDMD.feature_names_out_`, `EDMD.control_names_in_`, `EDMD.n_control_in_`, `EDMD.feature_names_pred_`, `EDMD._validate_dictionary`, `_split_X_edmd`, `EDMDPostObservable.__init__`, `EDMDPostObservable._fit_and_create_error_timeseries`, `HAVOK.__init__`

### `datafold/appfold/mpc.py`

Modelled: `_cost_to_array` (Mpc/Kmpc); `KMPC.__init__` (Mpc/Kmpc); `KMPC._setup_optimizer` (Mpc/Kmpc); `KMPC._create_evolution_matrices` (Mpc/Control, Mpc/Kmpc); `KMPC._create_cost_matrices` (Mpc/Kmpc); `KMPC._create_constraint_matrices` (Mpc/Kmpc); `KMPC.control_sequence_horizon` (Mpc/ClosedLoop, Mpc/Exact, Mpc/Kmpc, Mpc/LoopExact); `KMPC.control_system_reference` (Mpc/ClosedLoop, Mpc/LoopExact); `LQR.__init__` (Mpc/Control); `LQR.preset_target_state` (Mpc/Control); `LQR._setup_optimizer` (Mpc/Control); `LQR._create_cost_matrices` (Mpc/Control); `LQR.control_sequence` (Mpc/Control); `AffineKgMPC.__init__` (Mpc/AffineMpc, Mpc/Control); `AffineKgMPC._predict` (Mpc/AffineMpc); `AffineKgMPC.cost_and_jacobian` (Mpc/Control); `AffineKgMPC.cost` (Mpc/AffineMpc, Mpc/Control); `AffineKgMPC.jacobian` (Mpc/AffineMpc); `AffineKgMPC._lambda_ajoint_ODE` (Mpc/AffineMpc); `AffineKgMPC._compute_lambda_adjoint` (Mpc/AffineMpc); `AffineKgMPC._dcost_dx` (Mpc/AffineMpc, Mpc/Control); `AffineKgMPC._dcost_du` (Mpc/Control); `AffineKgMPC.generate_control_signal` (Mpc/AffineMpc, Mpc/Control)

### `datafold/dynfold/base.py`

Modelled: `TSCBase._read_fit_params` (Dyn/Validate, Transform/Select); `TSCBase._check_attributes_set_up` (Dmd/Score); `TSCBase._validate_datafold_data` (Dyn/Validate, Transform/Columns); `TSCTransformerMixin._setup_feature_attrs_fit` (Transform/Columns, Transform/Pca); `TSCTransformerMixin._validate_feature_input` (Transform/Columns, Transform/Pca, Transform/Scalers); `TSCTransformerMixin._same_type_X` (Dyn/Validate); `TSCPredictMixin._setup_default_tsc_metric_and_score` (Dmd/Score); `TSCPredictMixin._validate_and_setup_fit_attrs` (Dmd/Standard, Dyn/FitAttrs, Dyn/TimeValues, Utils/Simulate); `TSCPredictMixin._validate_and_set_time_values_predict` (Dyn/TimeValues, Utils/Simulate, Utils/SimulateFun); `TSCPredictMixin._validate_time_values_format` (Dyn/TimeValues, Utils/Simulate, Utils/SimulateFun); `TSCPredictMixin._validate_delta_time` (Dyn/FitAttrs, Dyn/TimeValues); `TSCPredictMixin._validate_feature_names` (Dyn/FitAttrs); `TSCPredictMixin._validate_qois` (Edmd/Predict); `TSCPredictMixin.reconstruct` (Tsc/InitCond)

Not modelled: `TSCBase.get_feature_names_out`, `TSCBase._has_feature_names`, `TSCBase._X_to_numpy`, `TSCTransformerMixin._more_tags`, `TSCTransformerMixin.fit_transform`, `TSCTransformerMixin.partial_fit_transform`, `TSCPredictMixin._validate_features_and_time_values`, `TSCPredictMixin.predict`, `TSCPredictMixin.fit_predict`

### `datafold/dynfold/compose.py`

Modelled: `TSCColumnTransformer.__init__` (Edmd/ColumnTransformer, Utils/Params); `TSCColumnTransformer.n_features_out_` (Edmd/ColumnTransformer); `TSCColumnTransformer._hstack` (Edmd/ColumnTransformer); `TSCColumnTransformer.fit` (Edmd/ColumnTransformer); `TSCColumnTransformer.partial_fit` (Edmd/ColumnTransformer)

Not modelled: `TSCPipeline.n_features_out_`, `TSCPipeline.feature_names_out_`

### `datafold/dynfold/dictlearning.py`

Modelled: `DMDDictLearning.__init__` (Edmd/LearnFit); `DMDDictLearning.fit` (Edmd/LearnFit)

Not modelled: `DictLearningMethod.__init__`

### `datafold/dynfold/dmap.py`

Modelled: `_DmapKernelAlgorithms.solve_eigenproblem` (Kernel/Dmap, Kernel/Eigsolver); `_DmapKernelAlgorithms.unsymmetric_kernel_matrix` (Kernel/Dmap, Kernel/Normalize); `DiffusionMaps.__init__` (Utils/Params); `DiffusionMaps.laplace_beltrami` (Utils/Settings); `DiffusionMaps.fokker_planck` (Utils/Settings); `DiffusionMaps.graph_laplacian` (Utils/Settings); `DiffusionMaps._validate_settings` (Utils/Settings); `DiffusionMaps._nystrom` (Kernel/Dmap); `DiffusionMaps._perform_dmap_embedding` (Kernel/Dmap); `DiffusionMaps._select_eigenpairs_target_coords` (Kernel/Dmap); `DiffusionMaps.set_target_coords` (Kernel/Dmap); `DiffusionMaps.fit` (Kernel/Dmap, Kernel/Fit, Kernel/Ownership, Utils/Settings); `DiffusionMaps.transform` (Kernel/Dmap, Kernel/Fit, Kernel/Ownership); `DiffusionMaps.fit_transform` (Kernel/Dmap, Kernel/Ownership); `DiffusionMaps.inverse_transform` (Kernel/Dmap); `DiffusionMapsVariable.__init__` (Utils/Params); `DiffusionMapsVariable.peq_est_` (Kernel/VariableFit); `DiffusionMapsVariable.fit` (Kernel/Variable, Kernel/VariableFit); `DiffusionMapsVariable.fit_transform` (Kernel/VariableFit); `Roseland.__init__` (Utils/Params); `Roseland._validate_setting` (Utils/Settings); `Roseland._subsample_landmarks` (Kernel/Roseland, Utils/Settings); `Roseland._compute_kernel_svd` (Kernel/Roseland); `Roseland._select_svdpairs_target_coords` (Kernel/Roseland); `Roseland._nystrom` (Kernel/Roseland); `Roseland._perform_roseland_embedding` (Kernel/Roseland); `Roseland.get_feature_names_out` (Kernel/Roseland); `Roseland.set_target_coords` (Kernel/Roseland); `Roseland.fit` (Kernel/Roseland, Utils/Settings); `Roseland.transform` (Kernel/Roseland); `Roseland.fit_transform` (Kernel/Roseland); `LocalRegressionSelection.__init__` (Kernel/Selection, Utils/Params); `LocalRegressionSelection._validate_parameter` (Kernel/Selection); `LocalRegressionSelection._single_residual_local_regression` (Kernel/Selection); `LocalRegressionSelection._set_indices` (Kernel/Selection); `LocalRegressionSelection.get_feature_names_out` (Kernel/Selection); `LocalRegressionSelection.fit` (Kernel/Selection, Kernel/SelectionFit); `LocalRegressionSelection.transform` (Kernel/SelectionFit)

Not modelled: `DiffusionMaps._get_default_kernel`, `DiffusionMaps.get_feature_names_out`, `DiffusionMapsVariable.get_feature_names_out`, `DiffusionMapsVariable.transform`, `Roseland._get_default_kernel`, `LocalRegressionSelection.inverse_transform`

### `datafold/dynfold/dmd.py`

Modelled: `compute_spectral_components` (Dmd/Pretrained); `DMDBase._read_predict_params` (Dyn/System); `DMDBase._read_user_sys_matrix` (Dyn/System); `DMDBase._evolve_dmd_system` (Dmd/Pretrained, Dyn/Linear, Dyn/System); `DMDBase.predict` (Dmd/Pretrained, Dyn/Linear, Dyn/System, Dyn/TimeValues, Edmd/TransformInverse); `DMDBase.reconstruct` (Tsc/InitCond); `DMDBase.fit_predict` (Dmd/Score); `DMDBase.score` (Dmd/Score); `PretrainedDMD.__init__` (Dmd/Pretrained, Dmd/Score, Utils/Params); `PretrainedDMD.from_available_system_matrix` (Dmd/Pretrained); `PretrainedDMD.fit` (Dmd/Pretrained, Edmd/LearnFit); `DMDStandard.__init__` (Dmd/Filter, Utils/Params); `DMDStandard._validate_parameters` (Utils/Settings); `DMDStandard._compute_full_system_matrix` (Dmd/Pseudo, Dmd/Standard, Dmd/Weights); `DMDStandard._compute_reduced_system_matrix` (Dmd/Filter, Dmd/Pseudo, Dmd/Standard, Dmd/Weights); `DMDStandard._remove_spectral_pollution` (Dmd/Filter, Dmd/Standard, Dmd/Weights); `DMDStandard._compute_left_eigenvectors` (Dyn/Spectral); `DMDStandard._compute_spectral_components` (Dmd/Standard); `DMDStandard.pseudospectrum` (Dmd/Pseudo); `DMDStandard._calc_z` (Dmd/Pseudo); `DMDStandard._calc_c` (Dmd/Pseudo); `DMDStandard._calc_d` (Dmd/Pseudo); `DMDStandard.spectral_measure` (Dmd/Pseudo); `DMDStandard.fit` (Dmd/Pseudo, Dmd/Standard, Dmd/Weights, Dyn/FitAttrs, Dyn/System, Edmd/RefusedFit, Utils/Settings); `gDMDFull.__init__` (Utils/Params); `gDMDFull._compute_koopman_generator` (Dmd/Standard); `gDMDFull._generate_fd_kwargs` (Utils/Settings); `gDMDFull.fit` (Dmd/Affine, Dyn/System); `DMDControl.__init__` (Utils/Params); `DMDControl._compute_koopman_and_control_matrix` (Dmd/Standard); `DMDControl.fit` (Dmd/Affine, Dmd/Standard, Dyn/System, Edmd/RefusedFit); `gDMDAffine.__init__` (Utils/Params); `gDMDAffine._compute_koopman_and_control_matrix` (Dmd/Affine); `PyDMDWrapper.__init__` (Utils/Params); `PyDMDWrapper._setup_pydmd_model` (Dmd/Pretrained); `PyDMDWrapper.fit` (Dmd/Pretrained); `StreamingDMD.__init__` (Dmd/Streaming, Utils/Params); `StreamingDMD._gram_schmidt` (Dmd/Streaming); `StreamingDMD._validate_parameter` (Dmd/Streaming, Utils/Settings); `StreamingDMD._increase_basis` (Dmd/Streaming); `StreamingDMD._pod_compression` (Dmd/Streaming); `StreamingDMD._update_sys_matrix` (Dmd/Streaming); `StreamingDMD._update` (Dmd/Streaming); `StreamingDMD.fit` (Dmd/Streaming); `StreamingDMD._separate_init_pairs` (Dmd/Streaming); `StreamingDMD._compute_koopman_matrix` (Dmd/Streaming); `StreamingDMD._compute_spectral_components` (Dmd/Streaming); `StreamingDMD.partial_fit` (Dmd/Streaming); `StreamingDMD.predict` (Dmd/Streaming); `OnlineDMD.__init__` (Dmd/Online, Utils/Params); `OnlineDMD._validate_parameters` (Dmd/Online, Utils/Settings); `OnlineDMD._compute_spectral_components` (Dmd/Online); `OnlineDMD._basic_initialize` (Dmd/Online); `OnlineDMD.ready_` (Dmd/Online); `OnlineDMD.fit` (Dmd/Online); `OnlineDMD.partial_fit` (Dmd/Online, Edmd/OnlineFit)

Not modelled: `DMDBase.dmd_modes`, `DMDBase.fit`, `DMDBase.get_feature_names_out`, `gDMDFull._compute_spectral_components`

### `datafold/dynfold/dynsystem.py`

Modelled: `SystemSolveStrategy.differential_matrix` (Dmd/Pretrained, Dyn/Spectral, Dyn/Strategy); `SystemSolveStrategy.differential_matrix_controlled` (Dyn/Strategy); `SystemSolveStrategy.differential_matrix_controlled_affine` (Dmd/Pretrained, Dyn/Strategy); `SystemSolveStrategy.differential_spectral` (Dmd/Pretrained, Dyn/Spectral, Dyn/Strategy, Edmd/Predict); `SystemSolveStrategy.flowmap_matrix` (Dyn/Linear, Dyn/Strategy, Edmd/Predict); `SystemSolveStrategy.flowmap_spectral` (Dmd/Pretrained, Dyn/Spectral, Dyn/Strategy, Edmd/Predict); `SystemSolveStrategy.flowmap_matrix_controlled` (Dyn/Linear, Dyn/Strategy); `SystemSolveStrategy.flowmap_spectral_controlled` (Dyn/Spectral, Dyn/Strategy); `SystemSolveStrategy.select_strategy` (Dyn/Strategy); `LinearDynamicalSystem.__init__` (Dyn/System, Utils/Params); `LinearDynamicalSystem._check_system_type` (Utils/Params); `LinearDynamicalSystem._check_system_mode` (Utils/Params); `LinearDynamicalSystem._set_sys_matrix` (Dyn/System); `LinearDynamicalSystem._check_control_input` (Dyn/Linear, Dyn/System, Edmd/TransformInverse); `LinearDynamicalSystem._check_initial_condition` (Dyn/System); `LinearDynamicalSystem._check_time_values` (Dyn/System); `LinearDynamicalSystem._check_time_delta` (Dyn/System); `LinearDynamicalSystem._set_and_check_system_params` (Dyn/System, Edmd/TransformInverse); `LinearDynamicalSystem.is_linear_system_setup` (Dyn/System); `LinearDynamicalSystem.compute_spectral_system_states` (Dyn/Spectral); `LinearDynamicalSystem.setup_spectral_system` (Dyn/System); `LinearDynamicalSystem.setup_matrix_system` (Dyn/System); `LinearDynamicalSystem.evolve_system` (Dyn/Evolve)

Not modelled: `LinearDynamicalSystem.is_matrix_mode`, `LinearDynamicalSystem.is_spectral_mode`, `LinearDynamicalSystem.is_differential_system`, `LinearDynamicalSystem.is_flowmap_system`

### `datafold/dynfold/jsf.py`

Modelled: `JointlySmoothFunctions.__init__` (Kernel/JsfTypes, Utils/Params); `JointlySmoothFunctions._validate_parameter` (Kernel/JsfTypes); `JointlySmoothFunctions._compute_kernel_eigenpairs` (Kernel/JsfTypes); `JointlySmoothFunctions._compute_jointly_smooth_vectors` (Kernel/Jsf, Kernel/JsfMany, Kernel/JsfTypes); `JointlySmoothFunctions._nystrom` (Kernel/Jsf, Kernel/JsfMany, Kernel/JsfTypes, Kernel/Ownership); `JointlySmoothFunctions._kernel_content_fit` (Kernel/Ownership); `JointlySmoothFunctions._kernel_content_transform` (Kernel/Ownership); `JointlySmoothFunctions.get_feature_names_out` (Kernel/JsfTypes); `JointlySmoothFunctions.fit` (Kernel/JsfTypes, Kernel/Ownership); `JointlySmoothFunctions.transform` (Kernel/JsfTypes, Kernel/Ownership); `JointlySmoothFunctions.fit_transform` (Kernel/JsfTypes); `JointlySmoothFunctions.score_` (Kernel/JsfThreshold); `JointlySmoothFunctions._compute_truncated_energies` (Kernel/Jsf, Kernel/JsfThreshold); `JointlySmoothFunctions.compute_E0` (Kernel/JsfThreshold)

### `datafold/dynfold/outofsample.py`

Modelled: `GeometricHarmonicsInterpolator.__init__` (Kernel/Harmonics, Utils/Params); `GeometricHarmonicsInterpolator._precompute_aux` (Kernel/Fit, Kernel/Harmonics); `GeometricHarmonicsInterpolator._validate_kwargs` (Kernel/Fit, Kernel/Harmonics); `GeometricHarmonicsInterpolator._more_tags` (Kernel/Harmonics, Kernel/Ownership); `GeometricHarmonicsInterpolator._get_tags` (Kernel/Harmonics, Kernel/Ownership); `GeometricHarmonicsInterpolator._get_default_kernel` (Kernel/Harmonics, Kernel/Ownership); `GeometricHarmonicsInterpolator.fit` (Kernel/Fit, Kernel/Harmonics, Kernel/Ownership); `GeometricHarmonicsInterpolator.predict` (Kernel/Fit, Kernel/Harmonics, Kernel/Ownership); `GeometricHarmonicsInterpolator.gradient` (Kernel/Fit, Kernel/Harmonics, Kernel/Mahalanobis); `GeometricHarmonicsInterpolator.score` (Kernel/Harmonics); `MultiScaleGeometricHarmonicsInterpolator.__init__` (Kernel/MultiScale, Utils/Params); `MultiScaleGeometricHarmonicsInterpolator._multi_scale_optimize` (Kernel/MultiScale); `MultiScaleGeometricHarmonicsInterpolator.__call__` (Kernel/MultiScale); `MultiScaleGeometricHarmonicsInterpolator.fit` (Kernel/MultiScale); `MultiScaleGeometricHarmonicsInterpolator.score` (Kernel/MultiScale); `LaplacianPyramidsInterpolator.__init__` (Kernel/Pyramid, Utils/Params); `LaplacianPyramidsInterpolator._validate` (Kernel/Pyramid); `LaplacianPyramidsInterpolator._get_tags` (Kernel/Pyramid); `LaplacianPyramidsInterpolator._termination_rules_single` (Kernel/Pyramid); `LaplacianPyramidsInterpolator._terminate_condition_loop` (Kernel/Pyramid); `LaplacianPyramidsInterpolator._distance_matrix` (Kernel/Pyramid); `LaplacianPyramidsInterpolator._get_next_level_` (Kernel/Pyramid); `LaplacianPyramidsInterpolator._track_new_level` (Kernel/Pyramid); `LaplacianPyramidsInterpolator._remove_increase_loocv_indices` (Kernel/Pyramid); `LaplacianPyramidsInterpolator._remove_residual_based_indices` (Kernel/Pyramid); `LaplacianPyramidsInterpolator._prepare_kernel_and_matrix` (Kernel/Pyramid); `LaplacianPyramidsInterpolator._compute_residual` (Kernel/Pyramid); `LaplacianPyramidsInterpolator._laplacian_pyramid` (Kernel/Pyramid); `LaplacianPyramidsInterpolator.fit` (Kernel/Pyramid); `LaplacianPyramidsInterpolator.predict` (Kernel/Pyramid)

Not modelled: `LaplacianPyramidsInterpolator.level_`, `LaplacianPyramidsInterpolator._setup`, `LaplacianPyramidsInterpolator.plot_eps_vs_residual`

### `datafold/dynfold/transform.py`

Modelled: `TSCFeaturePreprocess.__init__` (Utils/Params); `TSCFeaturePreprocess.from_name` (Edmd/Dictionary, Transform/Scalers); `TSCFeaturePreprocess.get_feature_names_out` (Edmd/Dictionary); `TSCFeaturePreprocess.fit` (Edmd/Dictionary, Transform/Scalers); `TSCFeaturePreprocess.transform` (Edmd/Dictionary, Transform/Scalers); `TSCFeaturePreprocess.fit_transform` (Edmd/Dictionary, Transform/Scalers); `TSCFeaturePreprocess.inverse_transform` (Transform/Scalers); `TSCFeatureSelect.__init__` (Transform/Select, Utils/Params); `TSCFeatureSelect.get_feature_names_out` (Transform/Select); `TSCFeatureSelect.fit` (Transform/Select); `TSCFeatureSelect.transform` (Transform/Columns, Transform/Select); `TSCIdentity.__init__` (Transform/Columns, Utils/Params); `TSCIdentity.get_feature_names_out` (Transform/Columns); `TSCIdentity._more_tags` (Edmd/AffineModelProps); `TSCIdentity.fit` (Edmd/AffineModelProps); `TSCIdentity.partial_fit` (Edmd/OnlineFit); `TSCIdentity.transform` (Transform/Columns); `TSCIdentity.inverse_transform` (Transform/Columns); `TSCIncrementalPCA.__init__` (Edmd/OnlineFit, Utils/Params); `TSCIncrementalPCA.get_feature_names_out` (Edmd/OnlineFit); `TSCIncrementalPCA.partial_fit` (Edmd/OnlineFit); `TSCIncrementalPCA.transform` (Edmd/OnlineFit); `TSCPrincipalComponent.get_feature_names_out` (Transform/Pca); `TSCPrincipalComponent.fit` (Transform/Pca); `TSCPrincipalComponent.transform` (Transform/Pca); `TSCPrincipalComponent.fit_transform` (Transform/Pca); `TSCPrincipalComponent.inverse_transform` (Transform/Pca); `TSCTakensEmbedding.__init__` (Transform/Takens, Utils/Params); `TSCTakensEmbedding._more_tags` (Transform/Takens); `TSCTakensEmbedding._validate_parameter` (Transform/Takens); `TSCTakensEmbedding._setup_delay_indices_array` (Transform/Takens); `TSCTakensEmbedding._columns_to_type_str` (Transform/Columns); `TSCTakensEmbedding.get_feature_names_out` (Transform/Takens); `TSCTakensEmbedding.fit` (Edmd/Dictionary, Transform/Columns, Transform/Takens); `TSCTakensEmbedding.partial_fit` (Edmd/Dictionary, Transform/Takens); `TSCTakensEmbedding.transform` (Edmd/Dictionary, Transform/Columns, Transform/Takens); `TSCTakensEmbedding.inverse_transform` (Transform/Takens); `TSCSampledNetwork.__init__` (Utils/Params); `TSCSampledNetwork.fit` (Transform/Select); `FourierRBF.__init__` (Utils/Params); `FourierRBF.fit` (Transform/Select); `FourierRBF.transform` (Transform/Select); `TSCMovingAverage.__init__` (Utils/Params); `TSCMovingAverage.get_feature_names_out` (Transform/Columns); `TSCMovingAverage.fit` (Edmd/Dictionary, Transform/Columns); `TSCMovingAverage.transform` (Edmd/Dictionary, Transform/Columns); `TSCRadialBasis.__init__` (Transform/RadialBasis, Utils/Params); `TSCRadialBasis._validate_center_type` (Transform/RadialBasis); `TSCRadialBasis.get_feature_names_out` (Transform/RadialBasis); `TSCRadialBasis.fit` (Transform/RadialBasis); `TSCRadialBasis.transform` (Transform/RadialBasis); `TSCRadialBasis.fit_transform` (Transform/RadialBasis); `TSCRadialBasis.inverse_transform` (Transform/RadialBasis); `TSCPolynomialFeatures.__init__` (Transform/Polynomial, Utils/Params); `TSCPolynomialFeatures.powers_` (Transform/Polynomial); `TSCPolynomialFeatures._more_tags` (Transform/Polynomial); `TSCPolynomialFeatures._get_poly_feature_names` (Transform/Polynomial); `TSCPolynomialFeatures._non_id_state_mask` (Transform/Polynomial); `TSCPolynomialFeatures.fit` (Transform/Polynomial); `TSCPolynomialFeatures.partial_fit` (Transform/Polynomial); `TSCPolynomialFeatures.transform` (Transform/Polynomial); `TSCApplyLambdas.__init__` (Utils/Params); `TSCApplyLambdas._not_implemented_numpy_arrays` (Transform/Columns); `TSCApplyLambdas.get_feature_names_out` (Transform/Columns); `TSCApplyLambdas.fit` (Transform/Columns); `TSCApplyLambdas.transform` (Transform/Columns, Transform/FiniteDifference); `TSCFiniteDifference.__init__` (Transform/Columns, Transform/FiniteDifference, Utils/Params); `TSCFiniteDifference.fit` (Transform/FiniteDifference); `TSCFiniteDifference.partial_fit` (Transform/FiniteDifference); `TSCFiniteDifference.transform` (Transform/Columns, Transform/FiniteDifference)

Not modelled: `TSCSampledNetwork.__repr__`, `TSCSampledNetwork.get_feature_names_out`, `TSCSampledNetwork.transform`, `TSCSampledNetwork.inverse_transform`, `FourierRBF.get_feature_names_out`, `FourierRBF.partial_fit`, `TSCFiniteDifference.get_feature_names_out`

### `datafold/pcfold/distance.py`

Modelled: `DistanceAlgorithm.__init__` (Dist/Basic, Dist/CknnDistance, Dist/Objects); `DistanceAlgorithm._set_attrs_range` (Dist/Basic, Dist/CknnDistance, Dist/Objects); `DistanceAlgorithm.dist_type` (Dist/CknnDistance, Dist/Objects); `DistanceAlgorithm._set_attrs_knn` (Dist/Objects); `DistanceAlgorithm.__repr__` (Dist/Objects); `DistanceAlgorithm.is_sparse` (Dist/Objects); `DistanceAlgorithm._validate_cut_off` (Dist/Objects); `DistanceAlgorithm._validate_X_Y` (Dist/Objects); `DistanceAlgorithm._validate_metric` (Dist/Objects); `DistanceAlgorithm._sparse2dense_matrix` (Dist/Objects); `DistanceAlgorithm._set_zeros_diagonal_sparse` (Dist/Basic); `DistanceAlgorithm._dense2csr_matrix` (Dist/Basic); `DistanceAlgorithm._ensure_kmin_nearest_neighbor` (Dist/Basic); `DistanceAlgorithm._handle_kmin` (Dist/Basic); `DistanceAlgorithm._validate_final_sparse_matrix` (Dist/Objects); `BruteForceDist.__init__` (Dist/Basic, Dist/Objects); `BruteForceDist.is_symmetric` (Dist/Basic); `BruteForceDist.__call__` (Dist/Basic, Dist/Objects); `RDist.__call__` (Dist/Backend, Dist/Basic); `ScipyKdTreeDist.__init__` (Dist/Basic, Dist/Objects); `ScipyKdTreeDist.is_symmetric` (Dist/Basic); `ScipyKdTreeDist._get_max_distance` (Dist/Basic); `ScipyKdTreeDist.__call__` (Dist/Backend, Dist/Basic); `SklearnBalltreeDist.__init__` (Dist/Basic, Dist/Objects); `SklearnBalltreeDist.is_symmetric` (Dist/Basic); `SklearnBalltreeDist._map_metric_and_radius` (Dist/Basic); `SklearnBalltreeDist._fit_nearest_neighbor` (Dist/Basic); `SklearnBalltreeDist.__call__` (Dist/Basic); `SklearnKNN.__init__` (Dist/Backend, Dist/Basic, Dist/Objects); `SklearnKNN.is_symmetric` (Dist/Basic, Dist/Objects); `SklearnKNN.__call__` (Dist/Basic, Dist/Objects); `GuessOptimalDist.__new__` (Dist/Backend, Dist/CknnDistance); `_all_available_distance_algorithm` (Dist/Backend); `get_backend_distance_algorithm` (Dist/Backend); `init_distance_algorithm` (Dist/Backend); `compute_distance_matrix` (Dist/Backend)

Not modelled: `DistanceAlgorithm.__call__`, `RDist.__init__`, `RDist.is_symmetric`, `RDist._adapt_radius`, `RDist._get_dist_options`

### `datafold/pcfold/eigsolver.py`

Modelled: `scipy_eigsolver` (Kernel/Eigsolver); `scipy_svdsolver` (Kernel/Eigsolver); `compute_kernel_eigenpairs` (Kernel/Dmap, Kernel/Eigsolver, Kernel/Normalize); `compute_kernel_svd` (Kernel/Eigsolver, Kernel/Roseland)

Not modelled: `NumericalMathError.__init__`

### `datafold/pcfold/estimators.py`

Modelled: `estimate_cutoff` (Kernel/Cutoff); `estimate_scale` (Kernel/Radial)

Not modelled: `_warn_if_not_gaussian_kernel`

### `datafold/pcfold/kernels.py`

Modelled: `_apply_kernel_function_numexpr` (Kernel/Radial); `_symmetric_matrix_division` (Kernel/Cone, Kernel/Normalize, Kernel/Variable); `_conjugate_stochastic_kernel_matrix` (Kernel/Normalize); `_stochastic_kernel_matrix` (Kernel/Normalize); `_kth_nearest_neighbor_dist` (Kernel/Cutoff, Kernel/Neighbor); `BaseManifoldKernel.__init__` (Dist/RadialDict); `BaseManifoldKernel.is_symmetric` (Kernel/Eigsolver); `BaseManifoldKernel._required_attrs` (Kernel/Normalize); `RadialBasisKernel.__init__` (Dist/RadialDict, Kernel/Radial); `RadialBasisKernel._check_bandwidth_parameter` (Kernel/Radial); `RadialBasisKernel.__call__` (Kernel/History, Kernel/Radial); `GaussianKernel.__init__` (Kernel/History, Kernel/Radial); `GaussianKernel.evaluate` (Kernel/History, Kernel/Radial); `MultiquadricKernel.__init__` (Kernel/Radial); `MultiquadricKernel.evaluate` (Kernel/Radial); `InverseMultiquadricKernel.__init__` (Kernel/Radial); `InverseMultiquadricKernel.evaluate` (Kernel/Radial); `InverseQuadraticKernel.__init__` (Kernel/Radial); `InverseQuadraticKernel.evaluate` (Kernel/Radial); `ThinplateKernel.__init__` (Kernel/Radial); `ThinplateKernel.evaluate` (Kernel/Radial); `CubicKernel.__init__` (Kernel/Radial); `CubicKernel.evaluate` (Kernel/Radial); `QuinticKernel.__init__` (Kernel/Radial); `QuinticKernel.evaluate` (Kernel/Radial); `ContinuousNNKernel.__init__` (Dist/CknnDistance, Kernel/Neighbor); `ContinuousNNKernel._validate` (Kernel/CknnHistory); `ContinuousNNKernel.__call__` (Kernel/CknnHistory); `ContinuousNNKernel.evaluate` (Kernel/CknnHistory, Kernel/Neighbor); `MahalanobisKernel.__init__` (Kernel/Mahalanobis); `MahalanobisKernel.__call__` (Kernel/Mahalanobis); `MahalanobisKernel.evaluate` (Kernel/Mahalanobis); `MahalanobisKernel.eval2` (Kernel/Mahalanobis); `DmapKernelFixed.__init__` (Kernel/History, Kernel/Normalize); `DmapKernelFixed.__repr__` (Kernel/History); `DmapKernelFixed.distance` (Kernel/History); `DmapKernelFixed.distance` (Kernel/History); `DmapKernelFixed.is_conjugate` (Kernel/Normalize); `DmapKernelFixed._normalize_sampling_density` (Kernel/History, Kernel/Normalize); `DmapKernelFixed._normalize` (Kernel/History, Kernel/Normalize); `DmapKernelFixed._eval_kernel_matrix` (Kernel/History, Kernel/Normalize); `DmapKernelFixed.__call__` (Kernel/CknnHistory, Kernel/History); `DmapKernelFixed.evaluate` (Kernel/History); `RoselandKernel.__init__` (Kernel/Roseland); `RoselandKernel._cast_array` (Kernel/Roseland); `RoselandKernel._normalize_density` (Kernel/Roseland); `RoselandKernel._compute_normalize_diagonal` (Kernel/Roseland); `RoselandKernel._eval_kernel_matrix` (Kernel/Roseland); `RoselandKernel.__call__` (Kernel/Roseland); `RoselandKernel.evaluate` (Kernel/Roseland); `ConeKernel.__init__` (Kernel/Cone); `ConeKernel._validate_parameter` (Kernel/Cone); `ConeKernel._compute_distance_and_cosinus_matrix` (Kernel/Cone); `ConeKernel._approx_dynflow` (Kernel/Cone); `ConeKernel.__call__` (Kernel/Cone); `DmapKernelVariable.__init__` (Kernel/Variable); `DmapKernelVariable.is_symmetric_transform` (Kernel/Variable, Kernel/VariableFit); `DmapKernelVariable._compute_rho0` (Kernel/Variable); `DmapKernelVariable._compute_q0` (Kernel/Variable); `DmapKernelVariable._compute_rho` (Kernel/Variable); `DmapKernelVariable._compute_kernel_eps_s` (Kernel/Variable); `DmapKernelVariable._compute_q_eps_s` (Kernel/Variable); `DmapKernelVariable._compute_kernel_eps_alpha_s` (Kernel/Variable); `DmapKernelVariable._compute_matrix_l` (Kernel/Variable); `DmapKernelVariable._compute_matrix_s_inv` (Kernel/Variable); `DmapKernelVariable._compute_matrix_l_conjugate` (Kernel/Variable); `DmapKernelVariable.__call__` (Kernel/Variable); `DmapKernelVariable.evaluate` (Kernel/Variable)

Not modelled: `_apply_kernel_function`, `BaseManifoldKernel.metric`, `BaseManifoldKernel.__call__`, `BaseManifoldKernel.diag`, `BaseManifoldKernel.is_stationary`, `BaseManifoldKernel.__repr__`, `BaseManifoldKernel._read_kernel_kwargs`, `PCManifoldKernel.__call__`, `PCManifoldKernel.evaluate`, `TSCManifoldKernel.__call__`, `ContinuousNNKernel._validate_reference_dist_knn`

### `datafold/pcfold/pointcloud.py`

Modelled: `PCManifold.__new__` (Dist/Backend); `PCManifold.__array_finalize__` (Dist/Backend); `PCManifold.__repr__` (Dist/Backend); `PCManifold.__reduce__` (Dist/Backend); `PCManifold.__setstate__` (Dist/Backend); `PCManifold.cut_off` (Dist/Backend); `PCManifold.cut_off` (Dist/Backend); `PCManifold.compute_distance_matrix` (Dist/Backend); `PCManifold.compute_kernel_matrix` (Dist/Backend); `PCManifold.optimize_parameters` (Dist/Cloud); `pcm_subsample` (Dist/Cloud); `pcm_remove_outlier` (Dist/Cloud)

### `datafold/pcfold/timeseries/accessor.py`

Modelled: `TSCAccessor.check_tsc` (Transform/Columns, Tsc/Check); `TSCAccessor.check_finite` (Tsc/Check); `TSCAccessor.check_min_samples` (Tsc/Check); `TSCAccessor.check_min_features` (Tsc/Check); `TSCAccessor.check_timeseries_same_length` (Tsc/Check); `TSCAccessor.check_const_time_delta` (Tsc/Check); `TSCAccessor.check_const_timesteps` (Tsc/Check); `TSCAccessor.check_equal_timevalues` (Tsc/Check); `TSCAccessor.check_contain_required_ids` (Dyn/Linear, Tsc/Check); `TSCAccessor.check_normalized_time` (Tsc/Check); `TSCAccessor.check_required_time_delta` (Tsc/Check); `TSCAccessor.check_required_n_timeseries` (Tsc/Check); `TSCAccessor.check_required_n_timesteps` (Tsc/Check); `TSCAccessor.check_required_min_timesteps` (Tsc/Check, Tsc/Model); `TSCAccessor.check_no_degenerate_ts` (Tsc/Check); `TSCAccessor.check_dtype_time` (Tsc/Check); `TSCAccessor.check_non_overlapping_timeseries` (Tsc/Check); `TSCAccessor.check_equal_delta_time` (Tsc/Check); `TSCAccessor.equal_const_delta_time` (Tsc/Check); `TSCAccessor.iter_timevalue_window` (Tsc/Check, Tsc/Folds); `TSCAccessor.shift_time_by_delta` (Tsc/Heap, Tsc/TimeOps); `TSCAccessor.expand_time_values` (Tsc/Heap, Tsc/TimeOps); `TSCAccessor.shift_time_per_time_series` (Edmd/Reconstruct, Tsc/Heap); `TSCAccessor.normalize_time` (Tsc/DeltaTime, Tsc/Fixed, Tsc/Heap, Tsc/RealDelta); `TSCAccessor.drop_last_n_samples` (Tsc/Heap, Tsc/Model, Tsc/Orient); `TSCAccessor.time_derivative` (Tsc/Derivative); `TSCAccessor.assign_ids_sequential` (Tsc/Heap, Tsc/Model); `TSCAccessor.assign_ids_train_test` (Tsc/Folds, Tsc/Heap); `TSCAccessor.assign_ids_const_delta` (Tsc/Folds, Tsc/Heap); `TSCAccessor.fill_timeseries_with_last_state` (Tsc/Heap, Tsc/TimeOps); `TSCAccessor.augment_control_input` (Tsc/TimeOps); `TSCAccessor.shift_matrices` (Tsc/Model, Tsc/Orient); `TSCAccessor.time_values_overview` (Tsc/InitCond); `TSCAccessor.plot_density2d` (Utils/Density); `TSCAccessor._generate_2d_meshgrid` (Utils/Density); `TSCAccessor._sum_up_density_values_on_grid` (Utils/Density)

Not modelled: `TSCAccessor.__init__`

### `datafold/pcfold/timeseries/collection.py`

Modelled: `_is_numeric_dtype` (Tsc/Select); `_LocTSCIndexer.__getitem__` (Tsc/Heap, Tsc/Select); `_LocTSCIndexer.__setitem__` (Tsc/Heap, Tsc/Select); `_iLocTSCIndexer.__getitem__` (Tsc/Heap, Tsc/Select); `_iLocTSCIndexer.__setitem__` (Tsc/Select); `TSCDataFrame.__init__` (Tsc/Csv, Tsc/Fixed, Tsc/Select); `TSCDataFrame.__setattr__` (Tsc/TimeOps); `TSCDataFrame.__repr__` (Tsc/Fixed); `TSCDataFrame.from_tensor` (Tsc/Model, Tsc/Orient); `TSCDataFrame.from_shift_matrices` (Tsc/Model, Tsc/Orient); `TSCDataFrame.from_same_indices_as` (Kernel/JsfTypes); `TSCDataFrame.from_single_timeseries` (Tsc/Frames, Tsc/TimeOps); `TSCDataFrame.from_array` (Tsc/TimeOps); `TSCDataFrame.from_frame_list` (Tsc/Model); `TSCDataFrame.to_csv` (Tsc/Csv); `TSCDataFrame.from_csv` (Tsc/Csv); `TSCDataFrame._constructor` (Tsc/Fixed, Tsc/Select); `TSCDataFrame._validate_index` (Tsc/FloatIndex, Tsc/Index, Tsc/IndexNum, Tsc/TimeOps); `TSCDataFrame._validate_columns` (Tsc/Index); `TSCDataFrame._validate_data` (Tsc/Csv); `TSCDataFrame._validate` (Tsc/Csv, Tsc/Index); `TSCDataFrame.n_timeseries` (Tsc/Model); `TSCDataFrame.ids` (Tsc/Model); `TSCDataFrame.delta_time` (Tsc/DeltaTime, Tsc/Fixed, Tsc/RealDelta); `TSCDataFrame.n_timesteps` (Tsc/Model); `TSCDataFrame.xs` (Tsc/Select); `TSCDataFrame.__getitem__` (Tsc/Heap, Tsc/Select); `TSCDataFrame.itertimeseries` (Tsc/Model); `TSCDataFrame.is_equal_length` (Tsc/Model); `TSCDataFrame.is_const_delta_time` (Tsc/DeltaTime, Tsc/RealDelta); `TSCDataFrame.is_same_time_values` (Tsc/Model); `TSCDataFrame.is_normalized_time` (Tsc/DeltaTime, Tsc/Fixed); `TSCDataFrame.degenerate_ids` (Tsc/Model); `TSCDataFrame.has_degenerate` (Tsc/Model); `TSCDataFrame.insert_ts` (Tsc/Frames, Tsc/Heap, Tsc/Model); `TSCDataFrame.time_interval` (Tsc/DeltaTime, Tsc/Fixed, Tsc/InitCond); `TSCDataFrame.time_values` (Tsc/Fixed, Tsc/Model); `TSCDataFrame.const_sampled_time_values` (Tsc/TimeOps); `TSCDataFrame.feature_to_array` (Tsc/TimeOps); `TSCDataFrame.select_time_values` (Tsc/Folds); `TSCDataFrame.initial_states` (Tsc/Heap, Tsc/Model); `TSCDataFrame.final_states` (Tsc/Heap, Tsc/Model); `TSCDataFrame.plot` (Tsc/Model); `InitialCondition.from_array` (Tsc/Frames, Tsc/InitCond); `InitialCondition.from_array_control` (Tsc/Frames, Tsc/InitCond); `InitialCondition.from_tsc` (Tsc/Frames, Tsc/InitCond); `InitialCondition.iter_reconstruct_ic` (Tsc/Frames, Tsc/InitCond); `InitialCondition.validate` (Tsc/Frames, Tsc/InitCond); `InitialCondition.validate_control` (Dyn/Linear, Edmd/ControlDelay, Edmd/Window, Tsc/InitCond); `allocate_time_series_tensor` (Dyn/Evolve)

Not modelled: `TSCException.__init__`, `TSCException.not_finite`, `TSCException.not_min_samples`, `TSCException.not_min_features`, `TSCException.not_same_length`, `TSCException.not_required_n_timesteps`, `TSCException.not_const_delta_time`, `TSCException.not_const_timesteps`, `TSCException.not_match_required_ids`, `TSCException.not_required_delta_time`, `TSCException.not_same_time_values`, `TSCException.not_normalized_time`, `TSCException.not_required_n_timeseries`, `TSCException.not_min_timesteps`, `TSCException.not_n_timesteps`, `TSCException.has_degenerate_ts`, `TSCException.has_wrong_time_dtype`, `TSCDataFrame.to_darts`, `TSCDataFrame._constructor_expanddim`, `TSCDataFrame.n_features`, `TSCDataFrame.loc`, `TSCDataFrame.iloc`, `TSCDataFrame.transpose`, `TSCDataFrame.set_index`, `TSCDataFrame.is_datetime_index`, `TSCDataFrame.is_finite`

### `datafold/pcfold/timeseries/metric.py`

Modelled: `TSCMetric.__init__` (Tsc/Metric); `TSCMetric._select_scaling` (Tsc/Metric); `TSCMetric._scaling` (Tsc/Metric); `TSCMetric._norm_metric` (Tsc/Metric); `TSCMetric._medae_metric` (Tsc/Metric); `TSCMetric._rrmse_metric` (Tsc/Metric); `TSCMetric._max_error` (Tsc/Metric); `TSCMetric._metric_from_str_input` (Tsc/Metric); `TSCMetric._is_scalar_multioutput` (Tsc/Metric); `TSCMetric._metric_per_timeseries` (Tsc/Metric); `TSCMetric._metric_per_feature` (Tsc/Metric); `TSCMetric._metric_per_timestep` (Tsc/Metric); `TSCMetric.__call__` (Tsc/Metric); `TSCScoring.__call__` (Tsc/Metric); `TSCKfoldSeries.split` (Tsc/Folds); `TSCKfoldSeries.get_n_splits` (Tsc/Folds); `TSCKFoldTime.split` (Tsc/Folds); `TSCKFoldTime.get_n_splits` (Tsc/Folds); `TSCWindowFoldTime.__init__` (Tsc/WindowFold); `TSCWindowFoldTime._reversed_ids_and_indices_tsc` (Tsc/WindowFold); `TSCWindowFoldTime.split` (Tsc/WindowFold); `TSCWindowFoldTime.get_n_splits` (Tsc/WindowFold)

Not modelled: `TSCMetric._single_column_name`, `TSCScoring.__init__`, `TSCCrossValidationSplit.split`, `TSCCrossValidationSplit.get_n_splits`, `TSCKfoldSeries.__init__`, `TSCKFoldTime.__init__`, `TSCWindowFoldTime.plot_splits`

### `datafold/utils/_systems.py`

Modelled: `ODE.__init__` (Utils/Simulate); `ODE._prepare_ic_and_time_values` (Utils/Simulate); `ODE.predict` (Utils/Simulate); `ODE._f` (Utils/Simulate); `ControllableODE.__init__` (Utils/Simulate); `ControllableODE.predict` (Utils/Simulate, Utils/SimulateFun, Utils/Systems); `LimitCycle._compute_angle` (Utils/Benchmarks); `LimitCycle._as_cartesian_coordinates` (Utils/Benchmarks); `LimitCycle.predict` (Utils/CyclePredict); `LimitCycle.eval_finite_differences` (Utils/Benchmarks, Utils/CyclePredict); `LimitCycle.eval_analytical` (Utils/Benchmarks, Utils/CyclePredict); `ThreeStablePoints._f` (Utils/Benchmarks); `Hopf._f` (Utils/Benchmarks); `Hopf.predict` (Utils/Benchmarks); `ClosedPeriodicalCurve._closed_system` (Utils/Benchmarks); `Pendulum._integrate_pendulum_sim` (Utils/Benchmarks); `Pendulum._compute_cart_parameters` (Utils/Benchmarks); `Pendulum._convert_cartesian` (Utils/Benchmarks); `InvertedPendulum.__init__` (Utils/Benchmarks); `InvertedPendulum._f` (Utils/Benchmarks); `InvertedPendulum.theta_to_trigonometric` (Utils/Benchmarks); `InvertedPendulum.trigonometric_to_theta` (Utils/Benchmarks); `InvertedPendulum2.__init__` (Utils/ControlBenchmarks); `InvertedPendulum2._f` (Utils/ControlBenchmarks); `InvertedPendulum2.theta_to_trigonometric` (Utils/Benchmarks); `InvertedPendulum2.trigonometric_to_theta` (Utils/Benchmarks); `Burger1DPeriodicBoundary.__init__` (Utils/Benchmarks); `Burger1DPeriodicBoundary._f` (Utils/Benchmarks); `Burger1DPeriodicBoundary._step` (Utils/Benchmarks); `DCMotor._runge_kutta` (Utils/Systems); `DCMotor.predict_vectorize` (Utils/Systems); `DCMotor._f` (Utils/Systems); `VanDerPol.__init__` (Utils/ControlBenchmarks); `VanDerPol._f` (Utils/ControlBenchmarks); `Duffing._f` (Utils/ControlBenchmarks); `Lorenz._f` (Utils/Benchmarks)

Not modelled: `DynamicalSystem.__init__`, `DynamicalSystem.predict`, `LimitCycle.__init__`, `ThreeStablePoints.__init__`, `ThreeStablePoints.get_feature_names_out`, `Hopf.__init__`, `Hopf.get_feature_names_out`, `ClosedPeriodicalCurve.__init__`, `ClosedPeriodicalCurve.predict`, `Pendulum.__init__`, `Pendulum.predict`, `InvertedPendulum.animate`, `InvertedPendulum2.animate`, `Burger1DPeriodicBoundary._jac`, `Burger1DPeriodicBoundary.solve_ivp`, `DCMotor.__init__`, `Duffing.__init__`, `Lorenz.__init__`, `Lorenz.get_feature_names_out`

### `datafold/utils/general.py`

Modelled: `assert_equal_eigenvectors` (Utils/Mesh); `is_integer` (Utils/General); `is_float` (Utils/General); `is_scalar` (Utils/General); `is_matrix` (Dyn/System); `is_vector` (Dyn/System); `if1dim_colvec` (Dist/Objects); `if1dim_rowvec` (Dist/Objects, Utils/General); `projection_matrix_from_feature_names` (Utils/General); `sort_eigenpairs` (Utils/General); `mat_dot_diagmat` (Kernel/Dmap, Utils/General); `diagmat_dot_mat` (Dmd/Weights, Utils/General); `generate_2d_regular_mesh` (Utils/Mesh); `df_type_and_indices_from` (Dyn/Validate); `is_symmetric_matrix` (Utils/Mesh); `is_stochastic_matrix` (Utils/General); `remove_numeric_noise_symmetric_matrix` (Kernel/Normalize, Utils/General); `random_subsample` (Utils/General)

Not modelled: `series_if_applicable`, `is_df_same_index`

### `datafold/utils/plot.py`

Not modelled: `plot_eigenvalues`, `plot_eigenvalues_time`, `plot_pairwise_eigenvector`, `plot_scales`
