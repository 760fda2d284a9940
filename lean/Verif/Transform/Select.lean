import Verif.Transform.Scalers
import Mathlib.Analysis.SpecialFunctions.Trigonometric.Basic
/-!
# Model of the feature selection and of the random Fourier features

`datafold/dynfold/transform.py`: `TSCFeatureSelect`, `FourierRBF` and `TSCSampledNetwork` (up to its first check).
-/

namespace Verif.Transform

/-- The parameter `features` of `TSCFeatureSelect` (transform.py 191-192): a numpy array of strings (the dtype has the length of the longest string), of objects, of 64 bit integers or of another type; or no
array of one dimension. -/
inductive Features
  | strings (names : List String)
  | objects (names : List String)
  | ints (pos : List Int)
  | other
  | noArray
deriving DecidableEq, Repr

/-- The length in the dtype of an array of strings: that of the longest string, at least one. -/
def strLength (l : List String) : Nat := l.foldr (fun s n => max s.length n) 1

/-- `self.features.dtype == np.str_` (transform.py 195): `np.str_` as a dtype has the length zero, and dtypes of strings are equal if they have the same length. -/
def isStrDtype : Features → Bool
  | .strings l => decide (strLength l = 0)
  | _ => false

/-- Python's indexing of a list with an integer, which may be negative. -/
def pyIndex {β : Type} (l : List β) (i : Int) : Option β := if 0 ≤ i then l[i.toNat]? else if 0 ≤ (l.length : Int) + i then l[((l.length : Int) + i).toNat]? else none

/-- `get_feature_names_out` (transform.py 194-200); without column names in `fit` the attribute does not exist. -/
def selectNames (fs : Features) (names : Option (List String)) : Except TabErr (List String) :=
  if isStrDtype fs then (match fs with | .strings l => .ok l | _ => .error .type)
  else match fs with
    | .ints pos => match names with
      | none => .error .attribute
      | some a => match pos.mapM (pyIndex a) with
        | none => .error .key
        | some l => .ok l
    | _ => .error .type

/-- `X.loc[:, names]` for a collection: a label that does not exist raises, and a result with two equal labels as well. -/
def locTable {α : Type} (X : Table α) (names : List String) : Except TabErr (Table α) :=
  match X.cols with
  | none => .error .attribute
  | some a =>
    if ¬ (∀ s ∈ names, s ∈ a) then .error .key
    else if ¬ names.Nodup then .error .names
    else .ok ⟨some names, names.length, X.rows.map (fun v => names.filterMap (fun s => v[a.idxOf s]?))⟩

/-- `fit` (transform.py 202-227) of a new estimator: the stored feature names and number of features. -/
def fitSelect {α : Type} (fs : Features) (X : Table α) : Except TabErr (Option (List String) × Nat) :=
  if fs = .noArray then .error .type
  else match selectNames fs X.cols with
    | .error e => .error e
    | .ok l => match locTable X l with
      | .error e => .error e
      | .ok _ => .ok (X.cols, X.n)

/-- `transform` (transform.py 229-233). -/
def select {α : Type} (fs : Features) (st : Option (List String) × Nat) (X : Table α) : Except TabErr (Table α) :=
  match X.cols with
  | none => .error .type
  | some _ => match checkInput st.1 st.2 X with
    | .error e => .error e
    | .ok () => match selectNames fs st.1 with
      | .error e => .error e
      | .ok l => locTable X l

/-! ### Random Fourier features -/

/-- The call `self._read_fit_params(None, **fit_params)` in `fit` (transform.py 955, base.py 44-60): the second parameter of the method is called `fit_params` and has no default. The dictionary of keyword
arguments is a list of names with the information whether the value is an empty dictionary. -/
def readParamsCall (kwargs : List (String × Bool)) : Except TabErr Unit :=
  match kwargs with
  | [(name, empty)] => if name = "fit_params" then (if empty then .ok () else .error .key) else .error .type
  | _ => .error .type

/-- `FourierRBF.fit` (transform.py 952-968): the columns of `fourier_components_` are drawn from the normal distribution, `draw d` is column `d`. -/
def fitFourier {n : Type} (nFeatures : Nat) (draw : Nat → n → ℝ) (kwargs : List (String × Bool)) : Except TabErr (Fin nFeatures → n → ℝ) :=
  match readParamsCall kwargs with
  | .error e => .error e
  | .ok () => .ok (fun d => draw d)

/-- `FourierRBF.transform` (transform.py 976-986) of one sample: first the sines, then the cosines. -/
noncomputable def fourier {n : Type} [Fintype n] {N : Nat} (w : Fin N → n → ℝ) (x : n → ℝ) : Fin N ⊕ Fin N → ℝ
  | .inl d => Real.sin (∑ j, x j * w d j)
  | .inr d => Real.cos (∑ j, x j * w d j)

/-! ### Sampled networks -/

/-- `TSCSampledNetwork.fit` (transform.py 895-921): `_validate_feature_input` is called before the attributes exist. The state says whether the attributes `n_features_in_` and `n_features_out_` exist. -/
def fitNetwork (fitted : Bool) : Except TabErr Unit × Bool := if fitted then (.ok (), true) else (.error .notFitted, false)

/-- Several calls of `fit`: what each one raises, and the final state. -/
def fitNetworks : Bool → Nat → List (Except TabErr Unit) × Bool
  | b, 0 => ([], b)
  | b, k + 1 => let r := fitNetwork b; let q := fitNetworks r.2 k; (r.1 :: q.1, q.2)

end Verif.Transform
