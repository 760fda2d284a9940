import Verif.Utils.Params
import Mathlib.Algebra.Order.Floor.Ring
import Mathlib.Data.Rat.Floor

/-!
# Model of the checks of numeric settings

The checks of the settings of `DiffusionMaps`, `Roseland`, `DMDStandard`, `StreamingDMD`, `OnlineDMD` and `gDMDFull` at the start of
`fit` or `partial_fit`, and the alternative constructors of `DiffusionMaps`.

Simplifications: floating point numbers are rational numbers with the two infinities and `nan`, the product of a number of samples
with a float is exact.  Complex numbers, `decimal.Decimal`, subclasses made by the user and the like are `other`.
-/

namespace Verif.Utils

/-- A floating point number. -/
inductive Fl | nan | negInf | fin (q : ℚ) | posInf
deriving DecidableEq, Repr

/-- `a < b` of floating point numbers: false if one of them is `nan`. -/
def Fl.lt : Fl → Fl → Bool
  | .nan, _ => false
  | _, .nan => false
  | .negInf, b => b ≠ .negInf
  | .fin _, .negInf => false
  | .fin q, .fin r => q < r
  | .fin _, .posInf => true
  | .posInf, _ => false

/-- `a <= b` of floating point numbers: false if one of them is `nan`. -/
def Fl.le (a b : Fl) : Bool := a.lt b || (a = b && a ≠ .nan)

/-- A Python object given as a setting, by its type: `bool` and `int` of Python, `numpy.integer`, `float` of Python, `numpy.float64` (a subclass
of `float`), the other `numpy.floating` types, an array with its number of rows, `None`, anything else (`numpy.bool_` and `str` among them). -/
inductive Setting
  | bool (b : Bool)
  | int (z : Int)
  | npInt (z : Int)
  | float (x : Fl)
  | float64 (x : Fl)
  | float32 (x : Fl)
  | array (rows : Nat)
  | none
  | other
deriving DecidableEq, Repr

/-- The types named in the checks: `int`, `numpy.integer`, `float`, `numpy.floating`. -/
inductive Kind | int | npInteger | float | npFloating
deriving DecidableEq, Repr

/-- `isinstance` with one type; `bool` is a subclass of `int`. -/
def Setting.isA : Setting → Kind → Bool
  | .bool _, .int => true
  | .int _, .int => true
  | .npInt _, .npInteger => true
  | .float _, .float => true
  | .float64 _, .float => true
  | .float64 _, .npFloating => true
  | .float32 _, .npFloating => true
  | _, _ => false

/-- The number compared with a bound. -/
def Setting.toFl : Setting → Fl
  | .bool b => .fin (if b then 1 else 0)
  | .int z => .fin z
  | .npInt z => .fin z
  | .float x => x
  | .float64 x => x
  | .float32 x => x
  | _ => .nan

/-- The exceptions `TypeError`, `ValueError`, `NotImplementedError`. -/
inductive SetErr | type | value | notImplemented
deriving DecidableEq, Repr

/-- `sklearn.utils.check_scalar(x, target_type=kinds, min_val=lo, max_val=hi)`; `strictLow` for `include_boundaries="right"`.  A `ValueError` is
raised if the number compares as smaller than the lower or larger than the upper bound. -/
def checkScalar (kinds : List Kind) (lo hi : Option ℚ) (strictLow : Bool) (s : Setting) : Except SetErr Unit :=
  if ¬ kinds.any s.isA then .error .type
  else if (lo.any fun l => if strictLow then s.toFl.le (.fin l) else s.toFl.lt (.fin l)) then .error .value
  else if (hi.any fun h => (Fl.fin h).lt s.toFl) then .error .value
  else .ok ()

/-- `DiffusionMaps._validate_settings` (dmap.py 333-350), called by `fit` (dmap.py 492). -/
def dmapSettings (nEigenpairs timeExponent alpha : Setting) : Except SetErr Unit :=
  match checkScalar [.int, .npInteger] (some 1) none false nEigenpairs with
  | .error e => .error e
  | .ok _ => match checkScalar [.float, .int, .npFloating, .npInteger] none none false timeExponent with
    | .error e => .error e
    | .ok _ => checkScalar [.float, .npFloating, .int, .npInteger] (some 0) (some 1) false alpha

/-- The check of `landmarks` in `Roseland._validate_setting` (dmap.py 923-946) for `n` samples. -/
def landmarksSetting (n : Nat) (s : Setting) : Except SetErr Unit :=
  if s.isA .float then checkScalar [.float] (some 0) (some 1) true s
  else if s.isA .int then checkScalar [.int] (some 1) (some n) false s
  else match s with
    | .array _ => .ok ()
    | _ => .error .type

/-- Python's `int(x)` of a number: towards zero; `nan` and the infinities are errors (`ValueError`, `OverflowError`). -/
def Fl.toInt : Fl → Except SetErr Int
  | .fin q => .ok (if 0 ≤ q then ⌊q⌋ else ⌈q⌉)
  | _ => .error .value

/-- `n * x` for a positive number of samples. -/
def Fl.scale (n : Nat) : Fl → Fl
  | .fin q => .fin (n * q)
  | x => x

/-- The check of the number of landmarks (dmap.py 960-964). -/
def enoughLandmarks : Except SetErr Int → Except SetErr Int
  | .error e => .error e
  | .ok k => if k ≤ 1 then .error .value else .ok k

/-- The number of landmarks drawn in `_subsample_landmarks` (dmap.py 951-964). -/
def drawnLandmarks (n : Nat) (s : Setting) : Except SetErr Int :=
  enoughLandmarks (if s.isA .float then (s.toFl.scale n).toInt else s.toFl.toInt)

/-- The number of landmarks `Roseland.fit` uses for `n` samples (dmap.py 1133-1145): the check of the setting, the subsample or the given array,
the check that there are two landmarks. -/
def roselandLandmarks (n : Nat) (s : Setting) : Except SetErr Int :=
  match landmarksSetting n s with
  | .error e => .error e
  | .ok _ => match s with
    | .array rows => if rows < 2 then .error .value else .ok rows
    | s => drawnLandmarks n s

/-- The two checks of `rank` in `DMDStandard.fit`, in `_validate_parameters` (dmd.py 742-756) and afterwards (dmd.py 1247-1250), for `d` features. -/
def rankSetting (d : Nat) (diagonalize : Bool) (rank : Setting) : Except SetErr Unit :=
  if rank = .none then .ok ()
  else match checkScalar [.int] (some 1) (some d) false rank with
    | .error e => .error e
    | .ok _ => if diagonalize then .error .notImplemented else checkScalar [.int] (some 1) (some ((d : ℚ) - 1)) false rank

/-- `StreamingDMD._validate_parameter` (dmd.py 2122-2131). -/
def streamingSettings (maxRank ngram tol : Setting) : Except SetErr Unit :=
  match (if maxRank = .none then .ok () else checkScalar [.int] (some 1) none false maxRank) with
  | .error e => .error e
  | .ok _ => match checkScalar [.int] (some 1) none false ngram with
    | .error e => .error e
    | .ok _ => checkScalar [.float] (some 0) none false tol

/-- `OnlineDMD._validate_parameters` (dmd.py 2438-2446). -/
def onlineSettings (weighting : Setting) : Except SetErr Unit := checkScalar [.float, .int] (some 0) (some 1) true weighting

/-- `dict.setdefault` -/
def setDefault (d : List (String × Atom)) (k : String) (v : Atom) : List (String × Atom) :=
  if (d.lookup k).isSome then d else d ++ [(k, v)]

/-- Python's `x != 1` for the value of a keyword; `True` equals one. -/
def Atom.isOne : Atom → Bool
  | .bool b => b
  | .int z => z = 1
  | .num q => q = 1
  | _ => false

/-- `gDMDFull._generate_fd_kwargs` (dmd.py 1451-1465); `none` and the empty dictionary are the same (`or {}`). -/
def fdKwargs (kw : Option (List (String × Atom))) : Except SetErr (List (String × Atom)) :=
  let d := kw.getD []
  if (d.lookup "diff_order").any (fun v => !v.isOne) then .error .value
  else .ok (setDefault (setDefault (setDefault d "diff_order" (.int 1)) "accuracy" (.int 2)) "shift_index" (.bool false))

/-- The three operators that `DiffusionMaps` has constructors for. -/
inductive Operator | laplaceBeltrami | fokkerPlanck | graphLaplacian
deriving DecidableEq, Repr

/-- The value of `alpha` passed on (dmap.py 285, 307, 329). -/
def Operator.alpha : Operator → ℚ
  | .laplaceBeltrami => 1
  | .fokkerPlanck => 1 / 2
  | .graphLaplacian => 0

/-- The default kernel object of the class method: it is made once, when the class is defined (dmap.py 270, 292, 314). -/
def Operator.kernelRef : Operator → Nat
  | .laplaceBeltrami => 0
  | .fokkerPlanck => 1
  | .graphLaplacian => 2

/-- `DiffusionMaps.laplace_beltrami`, `fokker_planck`, `graph_laplacian` (dmap.py 268-331), called with keyword arguments: `kernel` and
`n_eigenpairs` have defaults, the others are passed on; a name that is passed on twice is a `TypeError`. -/
def Operator.make (op : Operator) (given : List (String × Atom)) : Except ParErr Attrs :=
  let rest := given.filter (fun g => g.1 ≠ "kernel" ∧ g.1 ≠ "n_eigenpairs")
  if rest.any (fun g => g.1 = "is_stochastic" ∨ g.1 = "alpha") then .error .type
  else construct diffusionMaps ([("kernel", (given.lookup "kernel").getD (.obj op.kernelRef)),
    ("n_eigenpairs", (given.lookup "n_eigenpairs").getD (.int 10)), ("is_stochastic", .bool true), ("alpha", .num op.alpha)] ++ rest)

/-- `set_params(kernel__epsilon=e)` of scikit-learn: the nested parameter is set in the kernel object the model refers to.  `heap` has the bandwidths
of the kernel objects. -/
def setKernelEpsilon (a : Attrs) (e : ℚ) (heap : Nat → ℚ) : Except ParErr (Nat → ℚ) :=
  match a.lookup "kernel" with
  | some (.atom (.obj r)) => .ok (fun i => if i = r then e else heap i)
  | _ => .error .value

/-- The bandwidth of the kernel a model uses in `fit`: `deepcopy(self.kernel)` (dmap.py 511-515). -/
def kernelEpsilon (a : Attrs) (heap : Nat → ℚ) : Option ℚ :=
  match a.lookup "kernel" with
  | some (.atom (.obj r)) => some (heap r)
  | some (.atom .none) => some 1
  | _ => none

end Verif.Utils
