import Mathlib.Data.Real.Basic
/-!
# Types of data and number of functions of `JointlySmoothFunctions`

`datafold/dynfold/jsf.py` 84-448. The kernels and solvers appear by their eigenvalues only; the functions themselves are modelled in `Verif.Kernel.Jsf` and `Verif.Kernel.JsfMany`.
-/

namespace Verif.Kernel

/-- The types of data. -/
inductive JsfData | array | frame | tsc
deriving DecidableEq, Repr

/-- Exceptions: `ValueError` and `TypeError`. -/
inductive JsfErr | value | type
deriving DecidableEq, Repr

/-- The parameters (jsf.py 84-106): the names of the splits, `n_kernel_eigenvectors`, `n_jointly_smooth_functions` and `kernel_eigenvalue_cut_off`. -/
structure JsfParams where
  names : List String
  nEig : Int
  requested : Int
  cutOff : ℝ

open Classical in
/-- `_validate_parameter` (jsf.py 108-152) for splits of the right types. -/
noncomputable def jsfValidate (p : JsfParams) : Except JsfErr Unit :=
  if p.names.length ≤ 1 then .error .value
  else if ¬ p.names.Nodup then .error .value
  else if p.nEig < 1 then .error .value
  else if p.requested < 1 then .error .value
  else if p.cutOff < 0 then .error .value
  else .ok ()

open Classical in
/-- Number of eigenvectors kept for one split (jsf.py 175-183). -/
noncomputable def jsfKept (cutOff : ℝ) (eigenvalues : List ℝ) : Nat := (eigenvalues.filter (fun x => decide (cutOff < x))).length

/-- `_compute_kernel_eigenpairs` (jsf.py 154-185): `TSCDataFrame.from_same_indices_as` (collection.py 537-576) rejects a frame that is no collection. `ev i` are the `n_kernel_eigenvectors` eigenvalues of split `i`. -/
noncomputable def jsfEigen (t : JsfData) (p : JsfParams) (ev : String → List ℝ) : Except JsfErr (List Nat) :=
  match t with
  | .frame => .error .type
  | _ => .ok (p.names.map (fun s => jsfKept p.cutOff (ev s)))

/-- Number of columns of `_compute_jointly_smooth_vectors` (jsf.py 187-244): two splits, or more; the singular value decomposition of the stacked eigenvectors has at most as many vectors as there are samples. -/
def jsfColumns (n : Nat) (requested : Nat) : List Nat → Nat
  | [p₁, p₂] => min requested (min (p₁ - 1) (p₂ - 1))
  | ps => min (min requested ps.sum) n

/-- The labels `jsf0, jsf1, ...` of a collection have to fit to the columns (jsf.py 237-242, 341-342). -/
def jsfLabel (t : JsfData) (requested cols : Nat) : Except JsfErr Nat :=
  match t with
  | .tsc => if cols = requested then .ok cols else .error .value
  | _ => .ok cols

/-- `fit` (jsf.py 344-391): number of columns of `jointly_smooth_vectors_`. -/
noncomputable def jsfFitColumns (t : JsfData) (n : Nat) (p : JsfParams) (ev : String → List ℝ) : Except JsfErr Nat :=
  if (n : Int) < max 2 (p.nEig + 1) then .error .value
  else match jsfValidate p with
    | .error e => .error e
    | .ok _ =>
      match jsfEigen t p ev with
      | .error e => .error e
      | .ok ps => jsfLabel t p.requested.toNat (jsfColumns n p.requested.toNat ps)

/-- `fit_transform` (jsf.py 424-448) checks for one sample less, and calls `fit`. -/
noncomputable def jsfFitTransform (t : JsfData) (n : Nat) (p : JsfParams) (ev : String → List ℝ) : Except JsfErr Nat :=
  if (n : Int) < max 2 p.nEig then .error .value else jsfFitColumns t n p ev

/-- `transform` (jsf.py 393-422) of a fitted model: the array for the result has the requested number of columns, `np.dot(..., out=)` (jsf.py 287) rejects others. -/
def jsfTransformColumns (fitted : Nat) (p : JsfParams) : Except JsfErr Nat :=
  if fitted = p.requested.toNat then .ok p.requested.toNat else .error .value

end Verif.Kernel
