import Verif.Dmd.Standard
import Mathlib.Order.WithBot
import Mathlib.Data.List.Sort
/-!
# Model of the residual filter of `DMDStandard`

`datafold/dynfold/dmd.py`, `_remove_spectral_pollution` after the computation of the residuals, and the matrices that the reduced model hands to it.
-/

namespace Verif.Dmd

open Verif.Lin Verif.Dyn Matrix

/-- The dictionary in `residual_filter`; a missing key is `none`. -/
structure FilterDict where
  threshold : Option ℝ
  quantile : Option ℝ
  keepN : Option Int
  sort : Bool

/-- The parameter `residual_filter` (dmd.py 716-726): a number, a dictionary or something else. -/
inductive FilterArg
  | number (t : ℝ) | dict (f : FilterDict) | other

/-- Exceptions of the filter. -/
inductive FilterErr | wrongType | wrongKeys | kth | noFinite | allRemoved
deriving DecidableEq, Repr

/-- A numeric argument is converted to a dictionary and written back to the parameter (dmd.py 907-910). -/
def normFilter : FilterArg → Except FilterErr FilterDict
  | .number t => .ok ⟨some t, none, none, false⟩
  | .dict f => .ok f
  | .other => .error .wrongType

/-- `self.residual_filter.get(key, False)` counts as false for a missing key and for zero (dmd.py 913, 915, 919). -/
noncomputable def given [Zero β] [DecidableEq β] : Option β → Option β
  | none => none
  | some b => if b = 0 then none else some b

/-- `np.partition(residuals, value - 1)[value - 1]` (dmd.py 920-921): the entry of the sorted list, negative positions count from the end. -/
noncomputable def kthSmallest (l : List (WithTop ℝ)) (k : Int) : Except FilterErr (WithTop ℝ) :=
  let i := if k < 0 then k + l.length else k
  if i < 0 then .error .kth
  else match (l.mergeSort (fun a b => decide (a ≤ b)))[i.toNat]? with
    | none => .error .kth
    | some x => .ok x

/-- The bound below which components are kept (dmd.py 913-927). `quant` is `np.quantile`. -/
noncomputable def filterBound (quant : List (WithTop ℝ) → ℝ → WithTop ℝ) (f : FilterDict) (rs : List (WithTop ℝ)) : Except FilterErr (WithTop ℝ) :=
  match given f.threshold with
  | some t => .ok t
  | none => match given f.quantile with
    | some p => .ok (quant rs p)
    | none => match given f.keepN with
      | some n => kthSmallest rs (n - 1)
      | none => .error .wrongKeys

/-- `_remove_spectral_pollution` (dmd.py 877-968) on the components (eigenvalue, right eigenvector, left eigenvector if present: `α`) with their residuals; `⊤` is `inf`. `np.argsort` is modelled by a stable
sort (the order of equal residuals is not specified by numpy). -/
noncomputable def removePollution {α : Type} (quant : List (WithTop ℝ) → ℝ → WithTop ℝ) (a : FilterArg) (cs : List (α × WithTop ℝ)) : Except FilterErr (List (α × WithTop ℝ)) :=
  match normFilter a with
  | .error e => .error e
  | .ok f =>
    match filterBound quant f (cs.map (·.2)) with
    | .error e => .error e
    | .ok b =>
      let kept := cs.filter (fun c => decide (c.2 ≤ b))
      if cs.filter (fun c => decide (c.2 < ⊤)) = [] then .error .noFinite
      else if kept = [] then .error .allRemoved
      else .ok (if f.sort then kept.mergeSort (fun x y => decide (x.2 ≤ y.2)) else kept)

/-- The parameter after the call (dmd.py 907-908). -/
def filterAfter : FilterArg → FilterArg
  | .number t => .dict ⟨some t, none, none, false⟩
  | a => a

variable {ι : Type} [Fintype ι]

/-- Numerator and denominator of the squared residual in the reduced model: there `G' = shift_end shift_start^T` (dmd.py 869-871), the transpose of the matrix of the full model (796-799), and there is no division
by the number of samples. -/
noncomputable def residualReduced (ps : List ((ι → ℝ) × (ι → ℝ))) (ev : ℂ) (v : ι → ℂ) : ℝ × ℝ :=
  residualParts ((startM ps)ᵀ * startM ps) ((endM ps)ᵀ * startM ps) ((endM ps)ᵀ * endM ps) ev v

end Verif.Dmd
