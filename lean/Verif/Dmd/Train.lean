import Verif.Utils.EarlyStopping
/-!
# Model of the training of a learnt dictionary

`datafold/dynfold/dictlearning.py` 466-647 (`FeedforwardNN.fit`).  The network together with the state of the optimiser, of the learning rate scheduler and of the random number generator is an arbitrary
type `σ`; solving for the system matrix, one epoch of the optimiser, the validation loss and the scheduler are arbitrary functions.  A loss is a real number or `nan` (`none`).  Training and
validation data are assumed to be acceptable for `shift_matrices` (at least two samples per series), the value of `n_epochs` is a natural number.
-/

namespace Verif.Dmd

open Verif.Utils

/-- The settings of one call of `fit` (dictlearning.py 491-508): `n_epochs` and the `fit_params`; `early` are the arguments `patience`, `delta` of `EarlyStopping`. -/
structure TrainSettings where
  nEpochs : Nat
  hasVal : Bool
  early : Option (Nat × ℝ)
  sched : Bool
  record : Bool
  tqdm : Bool

/-- The numerical parts: `_compute_system_matrix` (325-371), `_train_epoch` (388-422: the loss of the epoch), the loss in `_validate_network` (424-459) and `lr_scheduler.step` (609-614). -/
structure Trainer (σ μ : Type) where
  solve : σ → μ
  train : σ → μ → σ × Option ℝ
  validate : σ → μ → Option ℝ
  sched : σ → Option ℝ → σ

/-- Exceptions of `fit`: `ValueError`, `UnboundLocalError` for `Xtorch_val` and for `current_val_loss`. -/
inductive TrainErr | value | unboundData | unboundLoss
deriving DecidableEq, Repr

/-- The variables of the training loop: the network, the early stopping object, the arrays of recorded losses and the local variable `current_val_loss` (`none`: not yet assigned). -/
structure TrainState (σ : Type) where
  net : σ
  stopper : Option EarlyStopping
  fitLosses : List (Option ℝ)
  valLosses : List (Option ℝ)
  valLoss : Option (Option ℝ)

/-- How an epoch ends. -/
inductive EpochEnd | next | stop | raised (e : TrainErr)

/-- `require_val_loss` (dictlearning.py 556-558). -/
def TrainSettings.requireVal (S : TrainSettings) : Bool := S.sched || S.early.isSome

variable {σ μ : Type}

/-- Training part of an epoch (dictlearning.py 574-598). -/
def trainPart (T : Trainer σ μ) (S : TrainSettings) (s : TrainState σ) (e : Nat) : TrainState σ :=
  { s with
    net := (T.train s.net (T.solve s.net)).1
    fitLosses := if S.record then s.fitLosses.set e (T.train s.net (T.solve s.net)).2 else s.fitLosses }

/-- Validation part of an epoch (dictlearning.py 424-464, 600-607): `K` is the system matrix computed at the beginning of the epoch. -/
noncomputable def validatePart (T : Trainer σ μ) (S : TrainSettings) (s : TrainState σ) (K : μ) (e : Nat) : TrainState σ :=
  if S.requireVal then
    { s with
      stopper := s.stopper.map (fun x => x.update (T.validate s.net K))
      valLosses := if S.record then s.valLosses.set e (T.validate s.net K) else s.valLosses
      valLoss := some (T.validate s.net K) }
  else s

/-- Learning rate scheduler (dictlearning.py 609-615). -/
def schedulePart (T : Trainer σ μ) (S : TrainSettings) (s : TrainState σ) : TrainState σ :=
  if S.sched then { s with net := T.sched s.net (s.valLoss.getD none) } else s

/-- The end of an epoch (dictlearning.py 617-630). -/
def endPart (S : TrainSettings) (s : TrainState σ) : EpochEnd :=
  if (s.stopper.map (·.stop)).getD false then .stop
  else if S.tqdm && S.hasVal && s.valLoss.isNone then .raised .unboundLoss
  else .next

/-- One epoch (dictlearning.py 572-630). -/
noncomputable def trainEpoch (T : Trainer σ μ) (S : TrainSettings) (s : TrainState σ) (e : Nat) : TrainState σ × EpochEnd :=
  if S.requireVal && !S.hasVal then (trainPart T S s e, .raised .unboundData)
  else
    (schedulePart T S (validatePart T S (trainPart T S s e) (T.solve s.net) e),
      endPart S (schedulePart T S (validatePart T S (trainPart T S s e) (T.solve s.net) e)))

/-- The loop over the epochs (dictlearning.py 571-630). -/
noncomputable def trainLoop (T : Trainer σ μ) (S : TrainSettings) : List Nat → TrainState σ → TrainState σ × Option TrainErr
  | [], s => (s, none)
  | e :: es, s =>
    match (trainEpoch T S s e).2 with
    | .next => trainLoop T S es (trainEpoch T S s e).1
    | .stop => ((trainEpoch T S s e).1, none)
    | .raised err => ((trainEpoch T S s e).1, some err)

/-- The attributes of a learning model: the network, the system matrix and the records of the losses. -/
structure Learner (σ μ : Type) where
  method : Option σ
  matrix : Option μ
  fitLosses : Option (List (Option ℝ))
  valLosses : Option (List (Option ℝ))

/-- The empty records (dictlearning.py 543-546). -/
def TrainSettings.emptyRecord (S : TrainSettings) : List (Option ℝ) := List.replicate S.nEpochs none

/-- Removing `nan` from the records (dictlearning.py 632-638). -/
def dropNan (l : List (Option ℝ)) : List (Option ℝ) := l.filter (·.isSome)

/-- The records after training (dictlearning.py 543-546, 632-638). -/
def storeRecords (S : TrainSettings) (a : Learner σ μ) (s : TrainState σ) (done : Bool) : Learner σ μ :=
  if S.record then
    { a with
      fitLosses := some (if done && S.early.isSome then dropNan s.fitLosses else s.fitLosses)
      valLosses := if S.hasVal then some (if done && S.early.isSome then dropNan s.valLosses else s.valLosses) else a.valLosses }
  else a

/-- The variables before the loop (dictlearning.py 512-570): `net0` is the new network with the new optimiser and scheduler. -/
noncomputable def startState (S : TrainSettings) (net0 : σ) : TrainState σ :=
  ⟨net0, S.early.map (fun p => EarlyStopping.new p.1 p.2), S.emptyRecord, S.emptyRecord, none⟩

/-- `FeedforwardNN.fit` (dictlearning.py 466-647): the attributes afterwards, and the exception if one is raised. -/
noncomputable def learnerFit (T : Trainer σ μ) (S : TrainSettings) (a : Learner σ μ) (net0 : σ) : Learner σ μ × Option TrainErr :=
  if S.nEpochs < 1 then (a, some .value)
  else if S.early.isSome && !S.hasVal then (storeRecords S { a with method := some net0 } (startState S net0) false, some .value)
  else
    let r := trainLoop T S (List.range S.nEpochs) (startState S net0)
    match r.2 with
    | some e => (storeRecords S { a with method := some r.1.net } r.1 false, some e)
    | none => ({ storeRecords S { a with method := some r.1.net } r.1 true with matrix := some (T.solve r.1.net) }, none)

end Verif.Dmd
