import Verif.Transform.Takens
import Mathlib.Algebra.Field.Defs
/-!
# Model of the column-wise transformers

`datafold/dynfold/transform.py`: `TSCFeatureSelect` 181-233, `TSCIdentity` 236-375, `TSCMovingAverage` 989-1072, `TSCApplyLambdas` 1432-1539, labels of
`TSCFiniteDifference` 1542-1718; `datafold/dynfold/base.py`: fit attributes 244-300.
-/

namespace Verif.Transform

open Verif.Tsc Verif.Np Verif.Takens

variable {α : Type}

/-- Exceptions. -/
inductive ColErr | features | dupColumns | missing | notConstDelta | window | minSamples | tsc (e : TscErr)
deriving DecidableEq, Repr

/-- The column labelled `n` (`X[n]`), one entry per row. -/
def column [Inhabited α] (X : Frame α) (n : String) : List α := X.rows.map (fun r => r.val.getD (X.cols.idxOf n) default)

/-- Label of lambda `i` applied to feature `c`. -/
def lambdaName (c : String) (i : Nat) : String := c ++ "_lambda" ++ toString i

/-- `TSCApplyLambdas.get_feature_names_out` (transform.py 1463-1473): for every feature, for every lambda. -/
def lambdaNamesOut (cols : List String) (n : Nat) : List String := cols.flatMap (fun c => (List.range n).map (lambdaName c))

/-- Labels attached in `TSCApplyLambdas.transform` (transform.py 1524-1533): for every lambda, for every feature. -/
def lambdaCols (cols : List String) (n : Nat) : List String := (List.range n).flatMap (fun i => cols.map (fun c => lambdaName c i))

/-- `TSCApplyLambdas.transform` (transform.py 1501-1539) after the validation of the input.  `X.apply(func, axis=0, raw=True)` calls the function
once per column with the whole column; the values are concatenated along axis 1 lambda by lambda, the index is that of `X`.  Lambdas that do not keep the
number of samples are outside the model (`default` would be read). -/
def applyLambdas [Inhabited α] (ls : List (List α → List α)) (X : Frame α) : Except ColErr (Frame α) :=
  let names := lambdaCols X.cols ls.length
  if ¬ names.Nodup then .error .dupColumns
  else
    let columns : List (List α) := ls.flatMap (fun l => X.cols.map (fun c => l (column X c)))
    .ok ⟨names, X.rows.zipIdx.map (fun p => { p.1 with val := columns.map (fun col => col.getD p.2 default) })⟩

/-- `TSCIdentity.get_feature_names_out` (transform.py 255-270). -/
def identityNames (rename const : Bool) (cols : List String) : List String :=
  let c := if rename then cols.map (· ++ "_id") else cols
  if const then c ++ ["const"] else c

/-- `X["const"] = 1` (pandas): overwrite the column if the label exists, otherwise append. -/
def setConst [One α] (X : Frame α) : Frame α :=
  if "const" ∈ X.cols then ⟨X.cols, X.rows.map (fun r => { r with val := r.val.set (X.cols.idxOf "const") 1 })⟩
  else ⟨X.cols ++ ["const"], X.rows.map (fun r => { r with val := r.val ++ [1] })⟩

/-- `TSCIdentity.transform` for a data frame (transform.py 320-349), after validation of the input columns. -/
def identityTransform [One α] (rename const : Bool) (X : Frame α) : Frame α :=
  let X := if rename then ⟨X.cols.map (· ++ "_id"), X.rows⟩ else X
  if const then setConst X else X

/-- `X.drop(label, axis=1)`: removes the columns with this label. -/
def dropCol (X : Frame α) (n : String) : Frame α :=
  let keep := X.cols.map (fun c => c != n)
  ⟨X.cols.filter (fun c => c != n), X.rows.map (fun r => { r with val := ((r.val.zip keep).filter (·.2)).map (·.1) })⟩

/-- `TSCIdentity.inverse_transform` (transform.py 351-375) for a data frame; `cols` are the input columns seen in `fit`.  The check on the number of features
and labels is `_validate_feature_input` (base.py 277-297). -/
def identityInverse (rename const : Bool) (cols : List String) (X : Frame α) : Except ColErr (Frame α) :=
  if X.cols ≠ identityNames rename const cols then .error .features
  else .ok (if const then dropCol X "const" else X)

/-- `TSCFeatureSelect.transform` for label selection (transform.py 228-233): `X.loc[:, features]`; a missing label raises in `fit`. -/
def featureSelect [Inhabited α] (feats : List String) (X : Frame α) : Except ColErr (Frame α) :=
  if feats.any (fun f => f ∉ X.cols) then .error .missing
  else if ¬ feats.Nodup then .error .dupColumns else .ok (locCols X feats)

/-- Sum of equally long feature rows. -/
def sumRows [Add α] : List (List α) → List α
  | [] => []
  | [a] => a
  | a :: l => List.zipWith (· + ·) a (sumRows l)

/-- `rolling(window).mean().dropna()` for one series (transform.py 1061-1067): the mean of the last `window` rows; the first `window - 1` rows are nan and
dropped (all values are finite). -/
def rollingMean [Add α] [Div α] [NatCast α] (w : Nat) (s : List (Int × List α)) : List (Int × List α) :=
  (List.range (s.length + 1 - w)).map (fun q =>
    ((s.map (·.1)).getD (q + w - 1) 0, (sumRows (((s.map (·.2)).drop q).take w)).map (fun x => x / (w : α))))

/-- `TSCMovingAverage.fit` + `transform` (transform.py 1012-1072). -/
def movingAverage [Add α] [Div α] [NatCast α] (w : Int) (k : TimeKind) (X : Frame α) : Except ColErr (Frame α) :=
  if w < 1 then .error .window
  else if X.rows.length < w.toNat then .error .minSamples
  else if !isConstDeltaTime k X.rows then .error .notConstDelta
  else match build ((itertimeseries X.rows).flatMap (fun p => (rollingMean w.toNat p.2).map (fun q => ⟨p.1, q.1, q.2⟩))) with
    | .error e => .error (.tsc e)
    | .ok rows => .ok ⟨X.cols.map (fun c => c ++ "_ma" ++ toString w.toNat), rows⟩

/-- `TSCMovingAverage.get_feature_names_out` (transform.py 1003-1010). -/
def movingAverageNames (w : Nat) (cols : List String) : List String := cols.map (fun c => c ++ "_ma" ++ toString w)

/-- `TSCFiniteDifference.get_feature_names_out` (transform.py 1584-1587). -/
def finiteDifferenceNames (cols : List String) : List String := cols.map (· ++ "_dot")

/-- Labels of the output of `TSCFiniteDifference.transform` (transform.py 1717). -/
def finiteDifferenceCols (cols : List String) (diffOrder : Nat) : List String := cols.map (fun c => c ++ "_dot" ++ toString diffOrder)

/-- Attributes that `_setup_feature_attrs_fit` keeps in the estimator (base.py 244-272). -/
structure Attrs where
  nFeaturesIn : Option Nat
  namesIn : Option (List String)
deriving DecidableEq, Repr

/-- A new estimator. -/
def Attrs.new : Attrs := ⟨none, none⟩

/-- `_setup_feature_attrs_fit` (base.py 244-272): existing attributes are kept (`hasattr`). -/
def Attrs.setup (a : Attrs) (cols : List String) : Attrs :=
  ⟨some (a.nFeaturesIn.getD cols.length), some (a.namesIn.getD cols)⟩

/-- `_validate_feature_input(direction="transform")` (base.py 274-282). -/
def Attrs.accepts (a : Attrs) (cols : List String) : Bool := a.nFeaturesIn == some cols.length && a.namesIn == some cols

/-- Column labels: pandas keeps integers or strings. -/
inductive Label | int (n : Int) | str (s : String)
deriving DecidableEq, Repr

/-- `X.columns.astype(np.str_)` for one label. -/
def Label.toStr : Label → Label
  | .int n => .str (toString n)
  | .str s => .str s

/-- What `TSCTakensEmbedding.fit` and `transform` do to the labels of the frame the caller passed: `_validate_datafold_data` returns the object itself (base.py
184-205, accessor.py 150) and `_columns_to_type_str` assigns to its `columns` (transform.py 619-624, 688, 757). -/
def takensArgLabels (cols : List Label) : List Label := cols.map Label.toStr

end Verif.Transform
