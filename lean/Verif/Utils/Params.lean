import Verif.Dyn.Strategy

/-!
# Model of the parameters of an estimator

The constructors of the estimators in `datafold/dynfold` and `datafold/appfold` and the parameter protocol of scikit-learn
(`BaseEstimator.get_params`, `BaseEstimator.set_params`, `sklearn.base.clone`) that they inherit.

Simplifications: parameters of nested estimators (`name__param`) are left out; `clone` copies the values, a copied value is identified
with its original.
-/

namespace Verif.Utils

open Verif.Dyn

/-- A Python value given as parameter; `obj` stands for any other object (a kernel, a transformer, a list, `torch.float64`). -/
inductive Atom | none | bool (b : Bool) | int (z : Int) | num (q : Rat) | inf | str (s : String) | obj (n : Nat)
deriving DecidableEq, Repr

/-- The truth value of a Python value (an `obj` counts as true). -/
def Atom.truthy : Atom → Bool
  | .none => false
  | .bool b => b
  | .int z => z ≠ 0
  | .num q => q ≠ 0
  | .inf => true
  | .str s => s ≠ ""
  | .obj _ => true

/-- The exceptions: `TypeError` of a call, `AttributeError`, `ValueError`, `RuntimeError` of `clone`, `NotImplementedError`. -/
inductive ParErr | type | attribute | value | runtime | notImplemented
deriving DecidableEq, Repr

/-- The value of an attribute: a plain value, a dictionary (`**kwargs`, or an object built from named values), or a solver. -/
inductive PVal | atom (a : Atom) | dict (l : List (String × Atom)) | solver (s : Strategy)
deriving DecidableEq, Repr

/-- An expression in a constructor: a parameter, a constant, or `a if p else b`. -/
inductive Expr | param (p : String) | const (a : Atom) | ifTrue (p : String) (a b : Atom)
deriving DecidableEq, Repr

/-- The right hand side of `self.attr = …` in a constructor. -/
inductive Src
  | expr (e : Expr)
  | kwargs
  | object (args : List (String × Expr))
  | solver (ty mode : Expr) (controlled affine : Bool)
deriving DecidableEq, Repr

/-- A class: the parameters of `__init__` with their defaults, whether it takes `**kwargs`, the check in front
(`raise ValueError` if the first parameter is not `None` and the second is not the value) and the assignments. -/
structure Cls where
  sig : List (String × Option Atom)
  kwargs : Bool
  check : Option (String × String × Atom)
  assigns : List (String × Src)
deriving DecidableEq, Repr

/-- `cls._get_param_names()`: the parameters of `__init__` without `*args` and `**kwargs`. -/
def Cls.names (c : Cls) : List String := c.sig.map (·.1)

/-- The attributes of an object. -/
abbrev Attrs := List (String × PVal)

/-- `setattr` -/
def setAttr (a : Attrs) (n : String) (v : PVal) : Attrs := (n, v) :: a.filter (fun e => e.1 ≠ n)

/-- The value a parameter has in a call `cls(**given)`. -/
def argOf (c : Cls) (given : List (String × Atom)) (n : String) : Atom :=
  match given.lookup n with
  | some v => v
  | none => ((c.sig.lookup n).getD none).getD .none

/-- The value of an expression in a constructor. -/
def Expr.eval (p : String → Atom) : Expr → Atom
  | .param n => p n
  | .const a => a
  | .ifTrue n a b => if (p n).truthy then a else b

/-- `_check_system_type` (dynsystem.py 457-462) -/
def parseType : Atom → Except ParErr SysType
  | .str "differential" => .ok .differential
  | .str "flowmap" => .ok .flowmap
  | _ => .error .value

/-- `_check_system_mode` (dynsystem.py 464-469) -/
def parseMode : Atom → Except ParErr SysMode
  | .str "matrix" => .ok .matrix
  | .str "spectral" => .ok .spectral
  | _ => .error .value

/-- The end of `LinearDynamicalSystem.__init__` (dynsystem.py 446-455): the two checks, then the solver is selected. -/
def initSolver (ty mode : Atom) (controlled affine : Bool) : Except ParErr PVal :=
  match parseType ty with
  | .error e => .error e
  | .ok t => match parseMode mode with
    | .error e => .error e
    | .ok m => match selectStrategy t m true controlled affine with
      | .error .notImplemented => .error .notImplemented
      | .error .noStrategy => .error .value
      | .ok s => .ok (.solver s)

/-- The value assigned to an attribute; `rest` are the arguments caught by `**kwargs`. -/
def Src.eval (p : String → Atom) (rest : List (String × Atom)) : Src → Except ParErr PVal
  | .expr e => .ok (.atom (e.eval p))
  | .kwargs => .ok (.dict rest)
  | .object args => .ok (.dict (args.map (fun x => (x.1, x.2.eval p))))
  | .solver ty mode ctl aff => initSolver (ty.eval p) (mode.eval p) ctl aff

/-- The assignments of a constructor, in order. -/
def runAssigns (p : String → Atom) (rest : List (String × Atom)) : List (String × Src) → Attrs → Except ParErr Attrs
  | [], a => .ok a
  | (n, s) :: l, a => match s.eval p rest with
    | .error e => .error e
    | .ok v => runAssigns p rest l (setAttr a n v)

/-- The check in front of a constructor (dmd.py 728-732). -/
def rejects (p : String → Atom) : Option (String × String × Atom) → Bool
  | none => false
  | some (a, b, v) => p a ≠ .none && p b ≠ v

/-- The call `cls(**given)`: an unknown name is a `TypeError` unless there is `**kwargs`, so is a missing parameter without default. -/
def construct (c : Cls) (given : List (String × Atom)) : Except ParErr Attrs :=
  let rest := given.filter (fun g => !c.names.contains g.1)
  if !c.kwargs && !rest.isEmpty then .error .type
  else if c.sig.any (fun s => s.2.isNone && (given.lookup s.1).isNone) then .error .type
  else if rejects (argOf c given) c.check then .error .value
  else runAssigns (argOf c given) rest c.assigns []

/-- `get_params(deep=False)` of scikit-learn: `getattr` of each parameter name. -/
def getParamsFrom (a : Attrs) : List String → Except ParErr (List (String × PVal))
  | [] => .ok []
  | n :: l => match a.lookup n with
    | none => .error .attribute
    | some v => match getParamsFrom a l with
      | .error e => .error e
      | .ok r => .ok ((n, v) :: r)

/-- `get_params(deep=False)` -/
def getParams (c : Cls) (a : Attrs) : Except ParErr (List (String × PVal)) := getParamsFrom a c.names

/-- The loop of `BaseEstimator.set_params`. -/
def setLoop (names : List String) : List (String × Atom) → Attrs → Except ParErr Attrs
  | [], a => .ok a
  | (n, v) :: q, a => if names.contains n then setLoop names q (setAttr a n (.atom v)) else .error .value

/-- `BaseEstimator.set_params(**q)` of scikit-learn: nothing to do for no parameters; otherwise the valid names come from `get_params`. -/
def setParams (c : Cls) (a : Attrs) (q : List (String × Atom)) : Except ParErr Attrs :=
  if q.isEmpty then .ok a
  else match getParams c a with
    | .error e => .error e
    | .ok _ => setLoop c.names q a

/-- The plain values among the values of the parameters (parameters hold only these). -/
def atomsOf (l : List (String × PVal)) : List (String × Atom) :=
  l.filterMap (fun x => match x.2 with | .atom v => some (x.1, v) | _ => none)

/-- `sklearn.base.clone`: a new object is constructed from the parameters; a `RuntimeError` if the new object has other parameters. -/
def cloneObj (c : Cls) (a : Attrs) : Except ParErr Attrs :=
  match getParams c a with
  | .error e => .error e
  | .ok ps => match construct c (atomsOf ps) with
    | .error e => .error e
    | .ok b => match getParams c b with
      | .error e => .error e
      | .ok qs => if ps = qs then .ok b else .error .runtime

/-- Calls of `set_params`, one after the other. -/
def setAll (c : Cls) : List (List (String × Atom)) → Attrs → Except ParErr Attrs
  | [], a => .ok a
  | q :: qs, a => match setParams c a q with
    | .error e => .error e
    | .ok b => setAll c qs b

/-! ## The constructors -/

/-- `self.n = n` for each of the names. -/
def keep (l : List String) : List (String × Src) := l.map (fun n => (n, .expr (.param n)))

/-- The assignments of `LinearDynamicalSystem.__init__` (dynsystem.py 432-455). -/
def linearInit (ty mode : Expr) (controlled affine : Bool) : List (String × Src) :=
  [("sys_type", .expr ty), ("sys_mode", .expr mode), ("is_controlled", .expr (.const (.bool controlled))),
   ("is_control_affine", .expr (.const (.bool affine))), ("is_time_invariant", .expr (.const (.bool true))),
   ("_evolve_system_states", .solver ty mode controlled affine)]

/-- `self.n = value` for a constant. -/
def fixedAttr (n : String) (a : Atom) : String × Src := (n, .expr (.const a))

/-- `DiffusionMaps.__init__` (dmap.py 246-265) -/
def diffusionMaps : Cls where
  sig := [("kernel", some .none), ("n_eigenpairs", some (.int 10)), ("time_exponent", some (.int 0)),
    ("is_stochastic", some (.bool true)), ("alpha", some (.int 1)), ("symmetrize_kernel", some (.bool true))]
  kwargs := false
  check := none
  assigns := keep ["kernel", "n_eigenpairs", "time_exponent", "is_stochastic", "alpha", "symmetrize_kernel"]

/-- `Roseland.__init__` (dmap.py 886-905) -/
def roseland : Cls where
  sig := [("kernel", some .none), ("n_svdtriplet", some (.int 10)), ("time_exponent", some (.int 0)),
    ("landmarks", some (.num (1 / 4))), ("alpha", some (.int 0)), ("random_state", some .none)]
  kwargs := false
  check := none
  assigns := keep ["kernel", "n_svdtriplet", "time_exponent", "landmarks", "alpha", "random_state"]

/-- `LocalRegressionSelection.__init__` (dmap.py 1319-1338) -/
def localRegressionSelection : Cls where
  sig := [("eps_med_scale", some (.int 3)), ("n_subsample", some .inf), ("strategy", some (.str "dim")), ("intrinsic_dim", some (.int 2)),
    ("regress_threshold", some (.num (9 / 10))), ("bandwidth_type", some (.str "median")), ("random_state", some .none)]
  kwargs := false
  check := none
  assigns := keep ["strategy", "intrinsic_dim", "regress_threshold", "bandwidth_type", "random_state", "eps_med_scale", "n_subsample"]

/-- `JointlySmoothFunctions.__init__` (jsf.py 84-106) -/
def jointlySmoothFunctions : Cls where
  sig := [("data_splits", none), ("n_kernel_eigenvectors", some (.int 100)), ("n_jointly_smooth_functions", some (.int 10)),
    ("kernel_eigenvalue_cut_off", some (.int 0)), ("eigenvector_tolerance", some (.num (1 / 1000000))), ("svd_solver_kwargs", some .none)]
  kwargs := false
  check := none
  assigns := keep ["data_splits", "n_kernel_eigenvectors", "n_jointly_smooth_functions", "kernel_eigenvalue_cut_off",
    "eigenvector_tolerance", "svd_solver_kwargs"]

/-- `GeometricHarmonicsInterpolator.__init__` (outofsample.py 78-91) -/
def geometricHarmonics : Cls where
  sig := [("kernel", some .none), ("n_eigenpairs", some (.int 10)), ("is_stochastic", some (.bool false)), ("alpha", some (.int 1)),
    ("symmetrize_kernel", some (.bool true))]
  kwargs := false
  check := none
  assigns := keep ["kernel", "n_eigenpairs", "is_stochastic", "alpha", "symmetrize_kernel"]

/-- `MultiScaleGeometricHarmonicsInterpolator.__init__` (outofsample.py 393-417); the kernel is always `GaussianKernel()`. -/
def multiScaleGeometricHarmonics : Cls where
  sig := [("initial_scale", some (.num 1)), ("n_eigenpairs", some (.int 11)), ("condition", some (.num 1)), ("admissible_error", some (.num 1)),
    ("is_stochastic", some (.bool false)), ("alpha", some (.int 1)), ("symmetrize_kernel", some (.bool false))]
  kwargs := false
  check := none
  assigns := keep ["condition", "admissible_error", "initial_scale"] ++ [fixedAttr "kernel" (.obj 0)] ++
    keep ["n_eigenpairs", "is_stochastic", "alpha", "symmetrize_kernel"]

/-- `LaplacianPyramidsInterpolator.__init__` (outofsample.py 551-564) -/
def laplacianPyramids : Cls where
  sig := [("initial_epsilon", some (.num 10)), ("mu", some (.num 2)), ("residual_tol", some .none), ("auto_adaptive", some (.bool false)),
    ("alpha", some (.int 0))]
  kwargs := false
  check := none
  assigns := keep ["initial_epsilon", "mu", "residual_tol", "auto_adaptive", "alpha"]

/-- `TSCFeaturePreprocess.__init__` (transform.py 37-38) -/
def featurePreprocess : Cls := ⟨[("sklearn_transformer", none)], false, none, keep ["sklearn_transformer"]⟩

/-- `TSCFeatureSelect.__init__` (transform.py 191-192) -/
def featureSelect : Cls := ⟨[("features", none)], false, none, keep ["features"]⟩

/-- `TSCIdentity.__init__` (transform.py 253-255) -/
def identity : Cls :=
  ⟨[("include_const", some (.bool false)), ("rename_features", some (.bool false))], false, none, keep ["include_const", "rename_features"]⟩

/-- `TSCIncrementalPCA.__init__` (transform.py 379-382) and that of `IncrementalPCA`. -/
def incrementalPCA : Cls :=
  ⟨[("n_components", none), ("whiten", some (.bool false)), ("copy", some (.bool false)), ("batch_size", some .none)], false, none,
   keep ["n_components", "whiten", "copy", "batch_size"]⟩

/-- `TSCTakensEmbedding.__init__` (transform.py 560-566) -/
def takensEmbedding : Cls :=
  ⟨[("delays", some (.int 10)), ("lag", some (.int 0)), ("frequency", some (.int 1)), ("kappa", some (.int 0))], false, none,
   keep ["lag", "delays", "frequency", "kappa"]⟩

/-- `TSCSampledNetwork.__init__` (transform.py 879-884) -/
def sampledNetwork : Cls := ⟨[("nn", none)], false, none, keep ["nn"]⟩

/-- `FourierRBF.__init__` (transform.py 943-945) -/
def fourierRBF : Cls := ⟨[("n_features", some (.int 100)), ("sigma", some (.int 1))], false, none, keep ["n_features", "sigma"]⟩

/-- `TSCMovingAverage.__init__` (transform.py 1000-1001) -/
def movingAverage : Cls := ⟨[("window", some (.int 3))], false, none, keep ["window"]⟩

/-- `TSCRadialBasis.__init__` (transform.py 1116-1129) -/
def radialBasis : Cls :=
  ⟨[("kernel", none), ("center_type", some (.str "all_data")), ("n_samples", some (.int 100)), ("exact_distance", some (.bool true))], false,
   none, keep ["kernel", "center_type", "n_samples", "exact_distance"]⟩

/-- `TSCPolynomialFeatures.__init__` (transform.py 1322-1337) and that of `PolynomialFeatures`. -/
def polynomialFeatures : Cls :=
  ⟨[("degree", some (.int 2)), ("interaction_only", some (.bool false)), ("include_bias", some (.bool false)),
    ("include_first_order", some (.bool false))], false, none,
   keep ["include_first_order", "degree", "interaction_only", "include_bias"] ++ [fixedAttr "order" (.str "C")]⟩

/-- `TSCApplyLambdas.__init__` (transform.py 1455-1456) -/
def applyLambdasCls : Cls := ⟨[("lambdas", none)], false, none, keep ["lambdas"]⟩

/-- `TSCFiniteDifference.__init__` (transform.py 1576-1587) -/
def finiteDifferenceCls : Cls :=
  ⟨[("spacing", some (.str "dt")), ("scheme", some (.str "center")), ("diff_order", some (.int 1)), ("accuracy", some (.int 2))], false, none,
   keep ["spacing", "scheme", "diff_order", "accuracy"]⟩

/-- `TSCColumnTransformer.__init__` (compose.py 45-63) and that of `ColumnTransformer`. -/
def columnTransformer : Cls :=
  ⟨[("transformers", none), ("remainder", some (.str "drop")), ("n_jobs", some .none), ("transformer_weights", some .none),
    ("verbose", some (.bool false)), ("verbose_feature_names_out", some (.bool true))], false, none,
   keep ["transformers", "remainder", "n_jobs", "transformer_weights", "verbose", "verbose_feature_names_out"] ++
     [fixedAttr "sparse_threshold" (.num (3 / 10))]⟩

/-- `EDMDCV.__init__` (edmd.py 1912-1936) and that of `GridSearchCV`. -/
def edmdCV : Cls :=
  ⟨[("estimator", none), ("param_grid", none), ("cv", none), ("n_jobs", some .none), ("pre_dispatch", some (.str "2*n_jobs")),
    ("refit", some (.bool true)), ("verbose", some (.int 1)), ("error_score", some (.str "raise")), ("return_train_score", some (.bool true))],
   false, none,
   [fixedAttr "scoring" .none] ++ keep ["estimator", "n_jobs", "refit", "cv", "verbose", "pre_dispatch", "error_score", "return_train_score",
     "param_grid"]⟩

/-- `gDMDAffine.__init__` (dmd.py 1778-1793) -/
def gdmdAffine : Cls :=
  ⟨[("diff_scheme", some (.str "center")), ("diff_accuracy", some (.int 2)), ("rcond", some .none)], false, none,
   linearInit (.const (.str "differential")) (.const (.str "matrix")) true true ++ keep ["diff_scheme", "diff_accuracy", "rcond"]⟩

/-- `StreamingDMD.__init__` (dmd.py 2093-2097) -/
def streamingDmd : Cls :=
  ⟨[("max_rank", some .none), ("ngram", some (.int 5)), ("incr_basis_tol", some (.num (1 / 10000000000)))], false, none,
   linearInit (.const (.str "flowmap")) (.const (.str "spectral")) false false ++ keep ["max_rank", "ngram", "incr_basis_tol"]⟩

/-- `OnlineDMD.__init__` (dmd.py 2430-2436) -/
def onlineDmd : Cls :=
  ⟨[("weighting", some (.num 1)), ("is_diagonalize", some (.bool false)), ("with_warm_up", some (.bool true))], false, none,
   linearInit (.const (.str "flowmap")) (.const (.str "spectral")) false false ++ keep ["weighting", "is_diagonalize", "with_warm_up"]⟩

/-- The estimators whose constructor only stores its parameters. -/
def plainEstimators : List Cls :=
  [diffusionMaps, roseland, localRegressionSelection, jointlySmoothFunctions, geometricHarmonics, multiScaleGeometricHarmonics,
   laplacianPyramids, featurePreprocess, featureSelect, identity, incrementalPCA, takensEmbedding, sampledNetwork, fourierRBF, movingAverage,
   radialBasis, polynomialFeatures, applyLambdasCls, finiteDifferenceCls, columnTransformer, edmdCV, gdmdAffine, streamingDmd, onlineDmd]

/-- `DMDStandard.__init__` (dmd.py 708-740) -/
def dmdStandard : Cls :=
  ⟨[("sys_mode", some (.str "spectral")), ("rank", some .none), ("reconstruct_mode", some (.str "exact")), ("diagonalize", some (.bool false)),
    ("approx_generator", some (.bool false)), ("rcond", some .none), ("residual_filter", some .none), ("compute_pseudospectrum", some (.bool false))],
   false, some ("residual_filter", "sys_mode", .str "spectral"),
   keep ["rank", "reconstruct_mode", "diagonalize", "approx_generator", "rcond", "residual_filter", "compute_pseudospectrum"] ++
     linearInit (.ifTrue "approx_generator" (.str "differential") (.str "flowmap")) (.param "sys_mode") false false⟩

/-- `gDMDFull.__init__` (dmd.py 1402-1417) -/
def gdmdFull : Cls :=
  ⟨[("sys_mode", some (.str "spectral")), ("is_diagonalize", some (.bool false)), ("rcond", some .none), ("kwargs_fd", some .none)], false, none,
   linearInit (.const (.str "differential")) (.param "sys_mode") false false ++ keep ["is_diagonalize", "rcond", "kwargs_fd"]⟩

/-- `DMDControl.__init__` (dmd.py 1602-1615); the `**kwargs` are dropped. -/
def dmdControlCls : Cls :=
  ⟨[("sys_mode", some (.str "matrix")), ("rcond", some .none)], true, none,
   linearInit (.const (.str "flowmap")) (.param "sys_mode") true false ++ keep ["rcond"]⟩

/-- `PretrainedDMD.__init__` (dmd.py 528-533), the parameters without the matrices. -/
def pretrainedDmd : Cls :=
  ⟨[("sys_type", none), ("sys_mode", none)], false, none, linearInit (.param "sys_type") (.param "sys_mode") false false⟩

/-- `PyDMDWrapper.__init__` (dmd.py 1915-1946) -/
def pyDmdWrapper : Cls :=
  ⟨[("method", none), ("svd_rank", some (.int 0)), ("tlsq_rank", some (.int 0)), ("exact", some (.bool false)), ("opt", some (.bool false))], true,
   none,
   linearInit (.const (.str "flowmap")) (.const (.str "spectral")) false false ++ keep ["method", "svd_rank", "tlsq_rank", "exact", "opt"] ++
     [("init_params", .kwargs)]⟩

/-- `DiffusionMapsVariable.__init__` (dmap.py 709-735): `symmetrize_kernel` only goes to the kernel.  The attribute `alpha`, read from the
kernel, is left out. -/
def diffusionMapsVariable : Cls :=
  ⟨[("epsilon", some (.num 1)), ("n_eigenpairs", some (.int 10)), ("nn_bandwidth", some (.int 10)), ("expected_dim", some (.int 2)),
    ("beta", some (.num (-1 / 2))), ("symmetrize_kernel", some (.bool false))], false, none,
   keep ["epsilon", "n_eigenpairs", "expected_dim", "beta", "nn_bandwidth"] ++
     [("dmap_kernel_", .object [("epsilon", .param "epsilon"), ("k", .param "nn_bandwidth"), ("expected_dim", .param "expected_dim"),
       ("beta", .param "beta"), ("symmetrize_kernel", .param "symmetrize_kernel")])]⟩

/-! ## EDMD -/

/-- The attributes of `EDMD` with steps: `dict_steps` and the `steps` of the pipeline; estimators are numbers. -/
structure EdmdObj where
  dictSteps : List (String × Nat)
  steps : List (String × Nat)
deriving DecidableEq, Repr

/-- `EDMD.__init__` (edmd.py 277-312), the part on the steps. -/
def edmdInit (dict : List (String × Nat)) (dmd : Nat) : EdmdObj := ⟨dict, dict ++ [("dmd", dmd)]⟩

/-- A parameter of `EDMD.set_params`. -/
inductive EdmdPar | steps (l : List (String × Nat)) | step (name : String) (t : Nat) | dictSteps (l : List (String × Nat)) | dmdModel (m : Nat)
deriving DecidableEq, Repr

/-- `set_params` of `EDMD` with one parameter, that of scikit-learn's `Pipeline`: `steps` replaces the steps, the name of a step replaces the
transformer, everything else is `setattr`.  `dmd_model` is a property without setter (edmd.py 314-318). -/
def edmdSet (e : EdmdObj) : EdmdPar → Except ParErr EdmdObj
  | .steps l => .ok { e with steps := l }
  | .step n t =>
    if (e.steps.map (·.1)).contains n then .ok { e with steps := e.steps.map (fun s => if s.1 = n then (n, t) else s) }
    else .error .value
  | .dictSteps l => .ok { e with dictSteps := l }
  | .dmdModel _ => .error .attribute

/-- `clone` of an `EDMD`: `dict_steps` and the property `dmd_model`, the estimator of the last step (edmd.py 314-318), go to the constructor. -/
def edmdClone (e : EdmdObj) : Option EdmdObj := e.steps.getLast?.map (fun s => edmdInit e.dictSteps s.2)

end Verif.Utils
