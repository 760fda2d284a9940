import Verif.Edmd.Reconstruct
import Verif.Tsc.Folds
import Verif.Tsc.Check
/-!
# Model of `EDMD.reconstruct` with control input and of `EDMDWindowPrediction`

`datafold/appfold/edmd.py` 712-772 and 2085-2368, `datafold/pcfold/timeseries/collection.py` 1962-1973, integer time values.
-/

namespace Verif.Edmd

open Verif.Tsc Verif.Np

variable {V W P : Type}

/-- Exceptions of the reconstruction methods. -/
inductive WinErr
  | tsc (e : TscErr) | fold (e : FoldErr) | windowSize | noControl | controlIds | controlTimes | controlStart | steps | deltaTime | pred
deriving DecidableEq, Repr

/-- `InitialCondition.validate_control` (collection.py 1962-1973): the initial condition has exactly the IDs of the control input (in sorted order), all control series have the same time
values, and the last state is at the time of the first control state. -/
def validateControl (ic : List (Row Int V)) (u : List (Row Int P)) : Except WinErr Unit :=
  if checkRequiredIds ic (ids u) true ≠ none then .error .controlIds
  else if !isSameTimeValues u then .error .controlTimes
  else match finalStates ic 1, initialStates u 1 with
    | .ok f, .ok g => if (timeValues f).head? = (timeValues g).head? then .ok () else .error .controlStart
    | .error e, _ => .error (.tsc e)
    | _, .error e => .error (.tsc e)

/-- `U.loc[pd.IndexSlice[X_ic.ids, :], :]` (edmd.py 729). -/
def selectIds (u : List (Row Int P)) (is : List Nat) : List (Row Int P) := u.filter (fun r => decide (r.id ∈ is))

/-- `EDMD._reconstruct` (edmd.py 712-772) with control input: the time values of `X` are shifted per series before the loop, those of `U` are not; `validate_control` is called with the
complete `U` for each group of initial conditions. -/
def reconstructControl (predict : List (Row Int V) → List (Row Int P) → List Int → Except WinErr (List (Row Int W))) (n : Nat) (c : List (Row Int V)) (u : List (Row Int P)) :
    Except WinErr (List (Row Int W)) × List (Row Int V) :=
  reconstructEdmd .tsc (fun ic times =>
    match validateControl ic u with
    | .error e => .error e
    | .ok _ => predict ic (selectIds u (ids ic)) times) n c

/-- Assign an index of (ID, time) pairs to a frame (`X.index = index`); a wrong length raises. -/
def writeIndex (c : List (Row Int W)) (index : List (Key Int)) : Except WinErr (List (Row Int W)) :=
  if c.length ≠ index.length then .error (.tsc .shapeMismatch)
  else match build (List.zipWith (fun (r : Row Int W) (key : Key Int) => (⟨key.id, key.time, r.val⟩ : Row Int W)) c index) with
    | .error e => .error (.tsc e)
    | .ok d => .ok d

/-- `TSCDataFrame.from_frame_list(list(X.tsc.iter_timevalue_window(..., per_time_series=True)))` (edmd.py 2213-2221, 2253-2261). -/
def windowFrames (c : List (Row Int V)) (w : Nat) (offset : Int) : Except WinErr (List (Row Int V)) :=
  match iterWindows .int c w offset true with
  | .error e => .error (.fold e)
  | .ok ws => match fromFrameList (ws.map Sum.inl) none with
    | .error e => .error (.tsc e)
    | .ok d => .ok d

/-- `pd.MultiIndex.from_product([X.ids, X.loc[X.ids[0]].index])` (edmd.py 2241-2245, 2282-2286). -/
def productIndex (d : List (Row Int V)) : List (Key Int) :=
  (ids d).flatMap (fun i => ((d.filter (fun r => r.id == (ids d).headD 0)).map (·.time)).map (fun t => (⟨i, t⟩ : Key Int)))

/-- `EDMDWindowPrediction._window_reconstruct` (edmd.py 2131-2306) with the call of `edmd._reconstruct` as parameter `recon`; `n` is `n_samples_ic_`.  All windows are given the time values of the
first one, the true index of the last `w - n + 1` samples of each window is written back at the end. -/
def windowCore (recon : List (Row Int V) → Except WinErr (List (Row Int W))) (n w : Nat) (offset : Int) (c : List (Row Int V)) : Except WinErr (List (Row Int W)) :=
  if w ≤ n then .error .windowSize
  else if !isConstDeltaTime .int c then .error .deltaTime
  else if !checkMinTimesteps c w then .error .steps
  else match windowFrames c w offset with
    | .error e => .error e
    | .ok d =>
      if nTimesteps d ≠ .one w then .error .steps
      else match writeIndex d (productIndex d) with
        | .error e => .error e
        | .ok d' => match recon d' with
          | .error e => .error e
          | .ok r => writeIndex r ((groupTail (w - n + 1) d).map (·.key))

/-- `_window_reconstruct` without control. -/
def windowReconstruct (predict : List (Row Int V) → List Int → Except WinErr (List (Row Int W))) (n w : Nat) (offset : Int) (c : List (Row Int V)) : Except WinErr (List (Row Int W)) :=
  windowCore (fun d => (reconstructEdmd .tsc predict n d).1) n w offset c

/-- The windows of the control input (edmd.py 2195-2202, 2251-2286): windows of the same size as for the states, without the last state and without the first `n - 1` states, with the time values of the
first one.  `dt` is `edmd.dt_`. -/
def controlWindows (dt : Int) (n w : Nat) (offset : Int) (u : List (Row Int P)) : Except WinErr (List (Row Int P)) :=
  if !isConstDeltaTime .int u then .error .deltaTime
  else if deltaTime .int u ≠ .one (some dt) then .error .deltaTime
  else match windowFrames u w offset with
    | .error e => .error e
    | .ok d =>
      let h := groupHead (w - 1) [] d
      if nTimesteps h ≠ .one (w - 1) then .error .steps
      else match build (dropKeys h ((groupHead (n - 1) [] h).map (·.key))) with
        | .error e => .error (.tsc e)
        | .ok d' => writeIndex d' (productIndex d')

/-- `_window_reconstruct` of a model that was fit with control input. -/
def windowControl (predict : List (Row Int V) → List (Row Int P) → List Int → Except WinErr (List (Row Int W))) (dt : Int) (n w : Nat) (offset : Int) (c : List (Row Int V))
    (u : Option (List (Row Int P))) : Except WinErr (List (Row Int W)) :=
  match u with
  | none => if w ≤ n then .error .windowSize else .error .noControl
  | some u => windowCore (fun d => match controlWindows dt n w offset u with
    | .error e => .error e
    | .ok u' => (reconstructControl predict n d u').1) n w offset c

/-- `EDMDWindowPrediction._window_score` (edmd.py 2308-2341) of a controlled model: `edmd.reconstruct(X=X, y=y, qois=qois, return_windows=True)` is called without the control input. -/
def windowScoreControl (predict : List (Row Int V) → List (Row Int P) → List Int → Except WinErr (List (Row Int W))) (dt : Int) (n w : Nat) (offset : Int)
    (score : List (Row Int W) → Rat) (c : List (Row Int V)) (_u : List (Row Int P)) : Except WinErr Rat :=
  match windowControl predict dt n w offset c none with
  | .error e => .error e
  | .ok r => .ok (score r)

end Verif.Edmd
