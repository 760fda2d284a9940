import Verif.Tsc.DeltaTime
import Mathlib.Data.Real.Basic
/-!
# Finite differences in time

Models `TSCAccessor.time_derivative` (datafold/pcfold/timeseries/accessor.py 704-824) for integer time values and real values in exact arithmetic. The coefficients of the scheme
come from the package `findiff`; here they are a parameter (`Stencil`).
-/

namespace Verif.Tsc

open Verif.Np

variable {ι : Type}

/-- The finite difference scheme: 'backward', 'center' or 'forward'. -/
inductive Scheme | backward | center | forward
deriving DecidableEq, Repr

/-- `findiff.coefficients(order, accuracy)[scheme]`: pairs of offset and weight. -/
abbrev Stencil := List (Int × ℝ)

/-- `np.abs(offsets.min())` (accessor.py 762). -/
def startSample (st : Stencil) : Nat := ((st.map Prod.fst).min?.getD 0).natAbs

/-- `np.abs(offsets.max())` (accessor.py 763). -/
def endSamples (st : Stencil) : Nat := ((st.map Prod.fst).max?.getD 0).natAbs

/-- The derivative at position `p` (accessor.py 765-789): the weighted sum of the shifted values, times `1 / spacing^order`. -/
noncomputable def fdValue (st : Stencil) (order : Nat) (spacing : ℝ) (ys : List (ι → ℝ)) (p : Nat) : ι → ℝ := fun f =>
  (st.map (fun k => k.2 * (ys[((p : Int) + k.1).toNat]?.getD 0) f)).sum * (1 / spacing ^ order)

/-- `_InternalDiff.diff` (accessor.py 748-804): the samples at which the scheme fits into the series, labelled with their time value or, with `shift_index`
and a scheme that is not 'backward', with the last time values of the series. -/
noncomputable def fdSeries (scheme : Scheme) (st : Stencil) (order : Nat) (shift : Bool) (spacing : ℝ) (l : List (Int × (ι → ℝ))) : List (Int × (ι → ℝ)) :=
  let times := l.map (·.1)
  let endSample := l.length - endSamples st
  let positions := (List.range endSample).drop (startSample st)
  let values := positions.map (fdValue st order spacing (l.map (·.2)))
  let labels := if scheme ≠ .backward ∧ shift = true then times.drop (l.length - values.length) else (times.take endSample).drop (startSample st)
  labels.zip values

/-- `time_derivative` (accessor.py 704-824). -/
noncomputable def timeDerivative (scheme : Scheme) (st : Stencil) (order : Nat) (shift : Bool) (c : List (Row Int (ι → ℝ))) : Except TscErr (List (Row Int (ι → ℝ))) :=
  if !isConstDeltaTime .int c then .error .notConstDelta
  else match deltaTime .int c with
    | .one (some d) => fromFrameList ((itertimeseries c).map (fun p => .inr (fdSeries scheme st order shift (d : ℝ) p.2))) (some (ids c))
    | _ => .error .notConstDelta

end Verif.Tsc
