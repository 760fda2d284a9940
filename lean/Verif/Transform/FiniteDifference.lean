import Verif.Tsc.Check
import Verif.Tsc.Derivative
import Verif.Transform.Columns
/-!
# Model of `TSCFiniteDifference`

`datafold/dynfold/transform.py` 1533-1729. Integer time values, finite real values. The coefficients of the package `findiff` are a parameter.
-/

namespace Verif.Transform

open Verif.Tsc

variable {ι : Type}

/-- The parameter `spacing`: the text "dt", a float or an int (transform.py 1576-1583). -/
inductive Spacing | dt | float (v : Int) | int (v : Int)
deriving DecidableEq, Repr

/-- The parameters (transform.py 1573-1587). -/
structure FdParams where
  spacing : Spacing
  scheme : Scheme
  order : Int
  accuracy : Int

/-- Exceptions: of the validation of the data, `TSCException` for an interval that is not constant, `TypeError`, `ValueError`, wrong features and of `time_derivative`. -/
inductive FdErr | check (e : CheckErr) | constDelta | type | value | features | tsc (e : TscErr)
deriving DecidableEq, Repr

/-- The attributes set in `fit`: `spacing_` and `feature_names_in_`. -/
structure FdFit where
  spacing : Int
  cols : List String
deriving DecidableEq, Repr

/-- The required time delta of the validation in `fit` (transform.py 1620-1628): only a float. -/
def Spacing.required : Spacing → Option Int
  | .float v => some v
  | _ => none

/-- `check_scalar` for the two orders (transform.py 1661-1673). -/
def fdOrders (p : FdParams) : Except FdErr Unit := if p.order < 1 then .error .value else if p.accuracy < 1 then .error .value else .ok ()

/-- `spacing_` (transform.py 1634-1658): the interval of the data, or the given number. For a number `check_scalar` is called without its argument `name`, a `TypeError`. -/
def fdSpacing (p : FdParams) (c : List (Row Int (ι → ℝ))) : Except FdErr Int :=
  match p.spacing with
  | .float _ => .error .type
  | .int _ => .error .type
  | .dt =>
    match deltaTime .int c with
    | .one (some d) => if d ≤ 0 then .error .value else .ok d
    | _ => .error .constDelta

/-- `TSCFiniteDifference.fit` (transform.py 1594-1676) for a collection with the given columns; other types of data are rejected. -/
def fdFit (p : FdParams) (cols : List String) (c : List (Row Int (ι → ℝ))) : Except FdErr FdFit :=
  match checkTsc .int (fun _ : ι → ℝ => true) cols.length { delta := p.spacing.required } c with
  | .error e => .error (.check e)
  | .ok _ =>
    match fdSpacing p c with
    | .error e => .error e
    | .ok d =>
      match fdOrders p with
      | .error e => .error e
      | .ok _ => .ok ⟨d, cols⟩

/-- `TSCFiniteDifference.partial_fit` (transform.py 1678-1682). -/
def fdPartialFit (p : FdParams) (st : Option FdFit) (cols : List String) (c : List (Row Int (ι → ℝ))) : Except FdErr FdFit :=
  match st with
  | none => fdFit p cols c
  | some f => .ok f

/-- `TSCFiniteDifference.transform` (transform.py 1684-1718): the labels of the columns and the time derivatives with `shift_index`. `coef order accuracy scheme` are the coefficients. -/
noncomputable def fdTransform (coef : Nat → Nat → Scheme → Stencil) (p : FdParams) (f : FdFit) (cols : List String) (c : List (Row Int (ι → ℝ))) :
    Except FdErr (List String × List (Row Int (ι → ℝ))) :=
  match checkTsc .int (fun _ : ι → ℝ => true) cols.length { delta := some f.spacing } c with
  | .error e => .error (.check e)
  | .ok _ =>
    if cols ≠ f.cols then .error .features
    else match timeDerivative p.scheme (coef p.order.toNat p.accuracy.toNat p.scheme) p.order.toNat true c with
      | .error e => .error (.tsc e)
      | .ok d => .ok (finiteDifferenceCols cols p.order.toNat, d)

end Verif.Transform
