import Mathlib.Data.Real.Basic
/-!
# Model of the early stopping rule

`datafold/dynfold/dictlearning.py` 46-66 (`EarlyStopping`).  A loss is a real number or `nan` (`none`); every comparison with `nan` is false.
-/

namespace Verif.Utils

/-- The attributes of `EarlyStopping` (dictlearning.py 47-52). -/
structure EarlyStopping where
  patience : Nat
  delta : ℝ
  counter : Nat
  best : Option (Option ℝ)
  stop : Bool

/-- `EarlyStopping(patience, delta)` (dictlearning.py 47-52). -/
def EarlyStopping.new (patience : Nat) (delta : ℝ) : EarlyStopping := ⟨patience, delta, 0, none, false⟩

/-- `a > b + delta` for floating point numbers that may be `nan` (dictlearning.py 57). -/
def exceeds (a b : Option ℝ) (delta : ℝ) : Prop :=
  match a, b with
  | some x, some y => y + delta < x
  | _, _ => False

open Classical in
/-- `update(val_loss)` (dictlearning.py 54-63). -/
noncomputable def EarlyStopping.update (s : EarlyStopping) (loss : Option ℝ) : EarlyStopping :=
  match s.best with
  | none => { s with best := some loss }
  | some b =>
    if exceeds loss b s.delta then { s with counter := s.counter + 1, stop := if s.patience ≤ s.counter + 1 then true else s.stop }
    else { s with best := some loss, counter := 0 }

/-- The object after the losses of several epochs. -/
noncomputable def EarlyStopping.run (s : EarlyStopping) (losses : List (Option ℝ)) : EarlyStopping := losses.foldl EarlyStopping.update s

end Verif.Utils
