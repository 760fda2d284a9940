import Verif.Dmd.Train
import Verif.Utils.EarlyStoppingProps
/-!
# C216: the training of a learnt dictionary
-/

namespace Verif.Dmd

open Verif.Utils

variable {σ μ : Type}

/-! ### Specification -/

/-- The network after training it for one epoch with the system matrix of the network at the beginning of the epoch. -/
def trainedNet (T : Trainer σ μ) (net : σ) : σ := (T.train net (T.solve net)).1

/-- The network after one epoch: trained, then the scheduler sees the validation loss. -/
def epochNet (T : Trainer σ μ) (S : TrainSettings) (net : σ) : σ :=
  if S.sched then T.sched (trainedNet T net) (T.validate (trainedNet T net) (T.solve net)) else trainedNet T net

/-- The network after `k` epochs. -/
def netAfter (T : Trainer σ μ) (S : TrainSettings) (net0 : σ) : Nat → σ
  | 0 => net0
  | k + 1 => epochNet T S (netAfter T S net0 k)

/-- The training losses of the first `k` epochs. -/
def trainLosses (T : Trainer σ μ) (S : TrainSettings) (net0 : σ) (k : Nat) : List (Option ℝ) :=
  (List.range k).map (fun e => (T.train (netAfter T S net0 e) (T.solve (netAfter T S net0 e))).2)

/-- The validation losses of the first `k` epochs. -/
def valLosses (T : Trainer σ μ) (S : TrainSettings) (net0 : σ) (k : Nat) : List (Option ℝ) :=
  (List.range k).map (fun e => T.validate (trainedNet T (netAfter T S net0 e)) (T.solve (netAfter T S net0 e)))

/-- The early stopping rule says stop after `k` epochs. -/
def StopsAfter (T : Trainer σ μ) (S : TrainSettings) (net0 : σ) (k : Nat) : Prop := ∃ p, S.early = some p ∧ ((EarlyStopping.new p.1 p.2).run (valLosses T S net0 k)).stop = true

/-- The settings for which training works: at least one epoch; early stopping and schedulers need validation data; validation data with a progress bar need early stopping or a scheduler. -/
structure Legal (S : TrainSettings) : Prop where
  epochs : 1 ≤ S.nEpochs
  early : S.early ≠ none → S.hasVal = true
  sched : S.sched = true → S.hasVal = true
  bar : S.tqdm = true → S.hasVal = true → S.early ≠ none ∨ S.sched = true

/-! ### Lemmas -/

/-- The variables after `e` epochs. -/
noncomputable def stateAt (T : Trainer σ μ) (S : TrainSettings) (net0 : σ) (e : Nat) : TrainState σ where
  net := netAfter T S net0 e
  stopper := S.early.map (fun p => (EarlyStopping.new p.1 p.2).run (valLosses T S net0 e))
  fitLosses := if S.record then trainLosses T S net0 e ++ List.replicate (S.nEpochs - e) none else S.emptyRecord
  valLosses := if S.record && S.requireVal then valLosses T S net0 e ++ List.replicate (S.nEpochs - e) none else S.emptyRecord
  valLoss := if S.requireVal then (valLosses T S net0 e).getLast? else none

theorem startState_eq (T : Trainer σ μ) (S : TrainSettings) (net0 : σ) : startState S net0 = stateAt T S net0 0 := by
  simp [startState, stateAt, netAfter, trainLosses, valLosses, EarlyStopping.run, TrainSettings.emptyRecord]

theorem set_append_replicate {α : Type} (l : List α) (n e : Nat) (hl : l.length = e) (he : e < n) (a x : α) :
    (l ++ List.replicate (n - e) a).set e x = (l ++ [x]) ++ List.replicate (n - (e + 1)) a := by
  subst hl
  rw [List.set_append_right _ _ le_rfl]
  obtain ⟨m, hm⟩ : ∃ m, n - l.length = m + 1 := ⟨n - l.length - 1, by omega⟩
  have hm' : n - (l.length + 1) = m := by omega
  rw [hm, hm', List.replicate_succ, Nat.sub_self, List.set_cons_zero]
  simp

theorem trainLosses_succ (T : Trainer σ μ) (S : TrainSettings) (net0 : σ) (k : Nat) :
    trainLosses T S net0 (k + 1) = trainLosses T S net0 k ++ [(T.train (netAfter T S net0 k) (T.solve (netAfter T S net0 k))).2] := by
  simp [trainLosses, List.range_succ]

theorem valLosses_succ (T : Trainer σ μ) (S : TrainSettings) (net0 : σ) (k : Nat) :
    valLosses T S net0 (k + 1) = valLosses T S net0 k ++ [T.validate (trainedNet T (netAfter T S net0 k)) (T.solve (netAfter T S net0 k))] := by
  simp [valLosses, List.range_succ]

theorem trainEpoch_legal (T : Trainer σ μ) {S : TrainSettings} (hS : Legal S) (net0 : σ) {e : Nat} (he : e < S.nEpochs) :
    (trainEpoch T S (stateAt T S net0 e) e).1 = stateAt T S net0 (e + 1) ∧
    (StopsAfter T S net0 (e + 1) → (trainEpoch T S (stateAt T S net0 e) e).2 = .stop) ∧
    (¬ StopsAfter T S net0 (e + 1) → (trainEpoch T S (stateAt T S net0 e) e).2 = .next) := by
  have h0 : (S.requireVal && !S.hasVal) = false := by
    cases hv : S.hasVal with
    | true => simp
    | false =>
      have h1 : S.early = none := by
        by_contra h; exact absurd (hS.early h) (by simp [hv])
      have h2 : S.sched = false := by
        cases hs : S.sched with
        | false => rfl
        | true => exact absurd (hS.sched hs) (by simp [hv])
      simp [TrainSettings.requireVal, h1, h2]
  have hst : schedulePart T S (validatePart T S (trainPart T S (stateAt T S net0 e) e) (T.solve (netAfter T S net0 e)) e) = stateAt T S net0 (e + 1) := by
    have hfit : (if S.record then (if S.record then trainLosses T S net0 e ++ List.replicate (S.nEpochs - e) none else S.emptyRecord).set e
        (T.train (netAfter T S net0 e) (T.solve (netAfter T S net0 e))).2 else (if S.record then trainLosses T S net0 e ++ List.replicate (S.nEpochs - e) none else S.emptyRecord)) =
        if S.record then trainLosses T S net0 (e + 1) ++ List.replicate (S.nEpochs - (e + 1)) none else S.emptyRecord := by
      cases S.record with
      | false => rfl
      | true =>
        simp only [if_true]
        rw [set_append_replicate _ _ _ (by simp [trainLosses]) he, trainLosses_succ]
    have hval : ∀ b : Bool, (if b then (if b then valLosses T S net0 e ++ List.replicate (S.nEpochs - e) none else S.emptyRecord).set e
        (T.validate (trainedNet T (netAfter T S net0 e)) (T.solve (netAfter T S net0 e))) else (if b then valLosses T S net0 e ++ List.replicate (S.nEpochs - e) none else S.emptyRecord)) =
        if b then valLosses T S net0 (e + 1) ++ List.replicate (S.nEpochs - (e + 1)) none else S.emptyRecord := by
      intro b
      cases b with
      | false => rfl
      | true =>
        simp only [if_true]
        rw [set_append_replicate _ _ _ (by simp [valLosses]) he, valLosses_succ]
    cases hr : S.requireVal with
    | false =>
      have h1 : S.early = none := by
        cases h : S.early with
        | none => rfl
        | some p => simp [TrainSettings.requireVal, h] at hr
      have h2 : S.sched = false := by
        cases h : S.sched with
        | false => rfl
        | true => simp [TrainSettings.requireVal, h] at hr
      simp only [schedulePart, validatePart, trainPart, stateAt, hr, h1, h2, Bool.false_eq_true, if_false, Bool.and_false, Option.map_none, netAfter, epochNet, trainedNet, hfit]
    | true =>
      have hst' : Option.map (fun x : EarlyStopping => x.update (T.validate (trainedNet T (netAfter T S net0 e)) (T.solve (netAfter T S net0 e))))
          (S.early.map (fun p => (EarlyStopping.new p.1 p.2).run (valLosses T S net0 e))) = S.early.map (fun p => (EarlyStopping.new p.1 p.2).run (valLosses T S net0 (e + 1))) := by
        rw [Option.map_map]
        congr 1
        funext p
        simp [valLosses_succ, EarlyStopping.run, List.foldl_append]
      have hv := hval S.record
      cases hs : S.sched with
      | false =>
        simp only [schedulePart, validatePart, trainPart, stateAt, hr, hs, Bool.false_eq_true, if_false, if_true, Bool.and_true, netAfter, epochNet, hfit]
        unfold trainedNet at hst' hv
        rw [hst', hv]
        simp [valLosses_succ, trainedNet]
      | true =>
        simp only [schedulePart, validatePart, trainPart, stateAt, hr, hs, if_true, Bool.and_true, netAfter, epochNet, hfit]
        unfold trainedNet at hst' hv
        rw [hst', hv]
        simp [valLosses_succ, trainedNet]
  have hK : (stateAt T S net0 e).net = netAfter T S net0 e := rfl
  unfold trainEpoch
  rw [h0, hK, hst]
  simp only [Bool.false_eq_true, if_false]
  have hstop : (((stateAt T S net0 (e + 1)).stopper.map (·.stop)).getD false = true) ↔ StopsAfter T S net0 (e + 1) := by
    unfold StopsAfter stateAt
    cases S.early with
    | none => simp
    | some p => simp
  refine ⟨trivial, fun h => ?_, fun h => ?_⟩
  · unfold endPart
    rw [if_pos (hstop.2 h)]
  · unfold endPart
    rw [if_neg (fun hh => h (hstop.1 hh)), if_neg]
    intro hb
    simp only [Bool.and_eq_true, Option.isNone_iff_eq_none] at hb
    obtain ⟨⟨h1, h2⟩, h3⟩ := hb
    have hr : S.requireVal = true := by
      unfold TrainSettings.requireVal
      rcases hS.bar h1 h2 with h4 | h4
      · cases h5 : S.early with
        | none => exact absurd h5 h4
        | some p => simp
      · simp [h4]
    simp [stateAt, hr, valLosses_succ] at h3

theorem trainLoop_legal (T : Trainer σ μ) {S : TrainSettings} (hS : Legal S) (net0 : σ) (m e : Nat) (hm : e + m = S.nEpochs) :
    ∃ E, e ≤ E ∧ E ≤ S.nEpochs ∧ trainLoop T S (List.range' e m) (stateAt T S net0 e) = (stateAt T S net0 E, none) ∧ (∀ k, e < k → k < E → ¬ StopsAfter T S net0 k) ∧
      (E = S.nEpochs ∨ (e < E ∧ StopsAfter T S net0 E)) := by
  induction m generalizing e with
  | zero => exact ⟨e, le_rfl, by omega, rfl, fun k h1 h2 => by omega, .inl (by omega)⟩
  | succ m ih =>
    obtain ⟨h1, h2, h3⟩ := trainEpoch_legal T hS net0 (e := e) (by omega)
    rw [List.range'_succ, trainLoop]
    by_cases hs : StopsAfter T S net0 (e + 1)
    · rw [h2 hs, h1]
      exact ⟨e + 1, by omega, by omega, rfl, fun k h4 h5 => by omega, .inr ⟨by omega, hs⟩⟩
    · rw [h3 hs, h1]
      obtain ⟨E, g1, g2, g3, g4, g5⟩ := ih (e + 1) (by omega)
      refine ⟨E, by omega, g2, g3, ?_, ?_⟩
      · intro k h4 h5
        by_cases hk : k = e + 1
        · subst hk; exact hs
        · exact g4 k (by omega) h5
      · rcases g5 with g5 | g5
        · exact .inl g5
        · exact .inr ⟨by omega, g5.2⟩

theorem dropNan_pad (l : List (Option ℝ)) (n : Nat) : dropNan (l ++ List.replicate n none) = dropNan l := by
  simp [dropNan, List.filter_append]

/-! ### Property theorems -/

/-- **C216 (training).** With legal settings `fit` succeeds whatever the optimiser does. The number `E` of epochs is the first one after which the early stopping rule says stop (see C59), and `n_epochs` if it
never does; the stored network is the one after `E` epochs and the stored system matrix is the one computed from exactly this network. -/
theorem C216_fit (T : Trainer σ μ) {S : TrainSettings} (hS : Legal S) (a : Learner σ μ) (net0 : σ) :
    ∃ E, 1 ≤ E ∧ E ≤ S.nEpochs ∧ (learnerFit T S a net0).2 = none ∧ (learnerFit T S a net0).1.method = some (netAfter T S net0 E) ∧
      (learnerFit T S a net0).1.matrix = some (T.solve (netAfter T S net0 E)) ∧ (∀ k, 1 ≤ k → k < E → ¬ StopsAfter T S net0 k) ∧ (E = S.nEpochs ∨ StopsAfter T S net0 E) ∧
      (S.record = true → S.early = none → (learnerFit T S a net0).1.fitLosses = some (trainLosses T S net0 E) ∧ E = S.nEpochs ∧
        (S.sched = true → (learnerFit T S a net0).1.valLosses = some (valLosses T S net0 E))) ∧
      (S.record = true → S.early ≠ none → (learnerFit T S a net0).1.fitLosses = some ((trainLosses T S net0 E).filter (·.isSome)) ∧
        (learnerFit T S a net0).1.valLosses = some ((valLosses T S net0 E).filter (·.isSome))) := by
  obtain ⟨E, g1, g2, g3, g4, g5⟩ := trainLoop_legal T hS net0 S.nEpochs 0 (by omega)
  have hpos := hS.epochs
  have hE : 1 ≤ E := by rcases g5 with g5 | g5 <;> omega
  have h1 : ¬ S.nEpochs < 1 := by omega
  have h2 : (S.early.isSome && !S.hasVal) = false := by
    cases he : S.early with
    | none => simp
    | some p => simp [hS.early (by simp [he])]
  have hfit : learnerFit T S a net0 = ({ storeRecords S { a with method := some (stateAt T S net0 E).net } (stateAt T S net0 E) true with matrix := some (T.solve (stateAt T S net0 E).net) }, none) := by
    unfold learnerFit
    rw [if_neg h1, h2, startState_eq T, List.range_eq_range', g3]
    rfl
  rw [hfit]
  have hlast : S.early = none → E = S.nEpochs := by
    intro he
    rcases g5 with g5 | ⟨_, p, hp, _⟩
    · exact g5
    · rw [he] at hp; cases hp
  refine ⟨E, hE, g2, rfl, ?_, rfl, fun k hk1 hk2 => g4 k (by omega) hk2, ?_, ?_, ?_⟩
  · unfold storeRecords
    split <;> rfl
  · rcases g5 with g5 | g5
    · exact .inl g5
    · exact .inr g5.2
  · intro hr he
    have := hlast he
    subst this
    refine ⟨by simp [storeRecords, hr, he, stateAt], rfl, fun hs => ?_⟩
    simp [storeRecords, hr, he, stateAt, hS.sched hs, hs, TrainSettings.requireVal]
  · intro hr he
    obtain ⟨p, hp⟩ := Option.ne_none_iff_exists'.1 he
    have hv := hS.early he
    constructor
    · simp only [storeRecords, hr, hp, stateAt, if_true, Option.isSome_some, Bool.and_true, dropNan_pad]
      rfl
    · simp only [storeRecords, hr, hp, hv, stateAt, if_true, Option.isSome_some, Bool.and_true, TrainSettings.requireVal, Bool.or_true, dropNan_pad]
      rfl

/-- **C216 (plateau).** For real validation losses and `delta = 0`, training stops exactly after the first epoch with which a plateau of `patience` epochs, each worse than an earlier one, is complete. -/
theorem C216_stops (T : Trainer σ μ) {S : TrainSettings} (net0 : σ) (p : Nat) (hp : S.early = some (p, 0)) (l : Nat → ℝ) (k : Nat)
    (hl : valLosses T S net0 k = (List.range k).map (fun e => some (l e))) : StopsAfter T S net0 k ↔ HasPlateau (max 1 p) ((List.range k).map l) := by
  rw [← C59_stop, StopsAfter, hl, hp]
  simp [List.map_map, Function.comp_def]

/-- **C216 (which settings).** Training succeeds exactly for the legal settings. -/
theorem C216_refused_iff (T : Trainer σ μ) (S : TrainSettings) (a : Learner σ μ) (net0 : σ) : (learnerFit T S a net0).2 = none ↔ Legal S := by
  constructor
  · intro h
    unfold learnerFit at h
    by_cases h1 : S.nEpochs < 1
    · rw [if_pos h1] at h; cases h
    rw [if_neg h1] at h
    by_cases h2 : (S.early.isSome && !S.hasVal) = true
    · rw [if_pos h2] at h; cases h
    rw [if_neg h2] at h
    obtain ⟨n, hn⟩ : ∃ n, S.nEpochs = n + 1 := ⟨S.nEpochs - 1, by omega⟩
    have hloop : (trainLoop T S (List.range S.nEpochs) (startState S net0)).2 = none := by
      dsimp only at h
      cases hr : (trainLoop T S (List.range S.nEpochs) (startState S net0)).2 with
      | none => rfl
      | some e => rw [hr] at h; cases h
    rw [hn, List.range_succ_eq_map, trainLoop] at hloop
    have hearly : S.early ≠ none → S.hasVal = true := by
      intro he
      obtain ⟨p, hp⟩ := Option.ne_none_iff_exists'.1 he
      simpa [hp] using h2
    have hv : S.requireVal = true → S.hasVal = true := by
      intro hr
      by_contra hc
      have : trainEpoch T S (startState S net0) 0 = (trainPart T S (startState S net0) 0, .raised .unboundData) := by
        unfold trainEpoch
        rw [if_pos (by simp [hr, hc])]
      rw [this] at hloop
      cases hloop
    refine ⟨by omega, hearly, fun hs => hv (by simp [TrainSettings.requireVal, hs]), fun ht hval => ?_⟩
    by_contra hc
    push Not at hc
    obtain ⟨hc1, hc2⟩ := hc
    have hc2' : S.sched = false := by simpa using hc2
    have hr : S.requireVal = false := by simp [TrainSettings.requireVal, hc1, hc2']
    have : (trainEpoch T S (startState S net0) 0).2 = .raised .unboundLoss := by
      unfold trainEpoch
      rw [if_neg (by simp [hr])]
      simp [endPart, schedulePart, validatePart, trainPart, startState, hr, hc1, hc2', ht, hval]
    rw [this] at hloop
    cases hloop
  · intro hS
    obtain ⟨E, _, _, h, _⟩ := C216_fit T hS a net0
    exact h

/-- **C216 (scheduler; violated).** A learning rate scheduler without validation data, for instance one that lowers the rate every few epochs, always raises `UnboundLocalError` in the first epoch. -/
theorem C216_scheduler_violated (T : Trainer σ μ) (S : TrainSettings) (hn : 1 ≤ S.nEpochs) (hs : S.sched = true) (hv : S.hasVal = false) (he : S.early = none) (a : Learner σ μ) (net0 : σ) :
    (learnerFit T S a net0).2 = some .unboundData := by
  obtain ⟨n, hn⟩ : ∃ n, S.nEpochs = n + 1 := ⟨S.nEpochs - 1, by omega⟩
  have h1 : trainEpoch T S (startState S net0) 0 = (trainPart T S (startState S net0) 0, .raised .unboundData) := by
    unfold trainEpoch
    rw [if_pos (by simp [hs, hv, TrainSettings.requireVal])]
  have hloop : trainLoop T S (List.range S.nEpochs) (startState S net0) = (trainPart T S (startState S net0) 0, some .unboundData) := by
    rw [hn, List.range_succ_eq_map, trainLoop, h1]
  unfold learnerFit
  rw [if_neg (by omega), if_neg (by simp [he]), hloop]

/-- **C216 (validation data; violated).** Validation data without early stopping and scheduler, for which the code announces a warning only, always raise `UnboundLocalError` with the default progress bar. -/
theorem C216_validation_violated (T : Trainer σ μ) (S : TrainSettings) (hn : 1 ≤ S.nEpochs) (hs : S.sched = false) (hv : S.hasVal = true) (he : S.early = none) (ht : S.tqdm = true)
    (a : Learner σ μ) (net0 : σ) : (learnerFit T S a net0).2 = some .unboundLoss := by
  obtain ⟨n, hn⟩ : ∃ n, S.nEpochs = n + 1 := ⟨S.nEpochs - 1, by omega⟩
  have hr : S.requireVal = false := by simp [TrainSettings.requireVal, hs, he]
  have h1 : (trainEpoch T S (startState S net0) 0).2 = .raised .unboundLoss := by
    unfold trainEpoch
    rw [if_neg (by simp [hr])]
    simp [endPart, schedulePart, validatePart, trainPart, startState, hr, he, hs, ht, hv]
  have hloop : (trainLoop T S (List.range S.nEpochs) (startState S net0)).2 = some .unboundLoss := by
    rw [hn, List.range_succ_eq_map, trainLoop, h1]
  unfold learnerFit
  rw [if_neg (by omega), if_neg (by simp [he])]
  dsimp only
  rw [hloop]

/-- **C216 (refused training; violated).** Every refused training but one with `n_epochs = 0` has already replaced the network, while the system matrix is the one from before: a fitted model is left with
a matrix that does not belong to its network. -/
theorem C216_refused_violated (T : Trainer σ μ) (S : TrainSettings) (hn : 1 ≤ S.nEpochs) (hS : ¬ Legal S) (a : Learner σ μ) (net0 : σ) :
    ∃ net, (net = net0 ∨ net = trainedNet T net0) ∧ (learnerFit T S a net0).1.method = some net ∧ (learnerFit T S a net0).1.matrix = a.matrix := by
  have hne : (learnerFit T S a net0).2 ≠ none := fun h => hS ((C216_refused_iff T S a net0).1 h)
  have hstore : ∀ (b : Learner σ μ) (s : TrainState σ) (d : Bool), (storeRecords S b s d).method = b.method ∧ (storeRecords S b s d).matrix = b.matrix := by
    intro b s d
    unfold storeRecords
    split <;> exact ⟨rfl, rfl⟩
  unfold learnerFit at hne ⊢
  rw [if_neg (by omega)] at hne ⊢
  by_cases h2 : (S.early.isSome && !S.hasVal) = true
  · rw [if_pos h2] at hne ⊢
    exact ⟨net0, .inl rfl, (hstore _ _ _).1, (hstore _ _ _).2⟩
  rw [if_neg h2] at hne ⊢
  dsimp only at hne ⊢
  obtain ⟨n, hn'⟩ : ∃ n, S.nEpochs = n + 1 := ⟨S.nEpochs - 1, by omega⟩
  have hearly : S.early ≠ none → S.hasVal = true := by
    intro he
    obtain ⟨p, hp⟩ := Option.ne_none_iff_exists'.1 he
    simpa [hp] using h2
  have hloop : ∃ e, (trainLoop T S (List.range S.nEpochs) (startState S net0)).2 = some e ∧ (trainLoop T S (List.range S.nEpochs) (startState S net0)).1.net = trainedNet T net0 := by
    rw [hn', List.range_succ_eq_map, trainLoop]
    by_cases hb : (S.requireVal && !S.hasVal) = true
    · have h1 : trainEpoch T S (startState S net0) 0 = (trainPart T S (startState S net0) 0, .raised .unboundData) := by
        unfold trainEpoch
        rw [if_pos hb]
      rw [h1]
      exact ⟨_, rfl, rfl⟩
    · have hv : S.sched = true → S.hasVal = true := by
        intro hs
        simpa [TrainSettings.requireVal, hs] using hb
      have hbar : S.tqdm = true ∧ S.hasVal = true ∧ S.early = none ∧ S.sched = false := by
        by_contra hc
        refine hS ⟨hn, hearly, hv, fun ht hval => ?_⟩
        by_contra hcc
        push Not at hcc
        exact hc ⟨ht, hval, hcc.1, by simpa using hcc.2⟩
      obtain ⟨ht, hval, he, hs⟩ := hbar
      have hr : S.requireVal = false := by simp [TrainSettings.requireVal, hs, he]
      have h1 : trainEpoch T S (startState S net0) 0 = (trainPart T S (startState S net0) 0, .raised .unboundLoss) := by
        unfold trainEpoch
        rw [if_neg hb]
        simp [endPart, schedulePart, validatePart, trainPart, startState, hr, he, hs, ht, hval]
      rw [h1]
      exact ⟨_, rfl, rfl⟩
  obtain ⟨e, h3, h4⟩ := hloop
  rw [h3, h4]
  exact ⟨_, .inr rfl, (hstore _ _ _).1, (hstore _ _ _).2⟩

/-- **C216 (best network; violated).** Whenever early stopping ends the training (real losses, `delta = 0`), the validation loss of the returned network is larger than that of an earlier epoch: the best
network is never the one that is kept. -/
theorem C216_best_violated (T : Trainer σ μ) {S : TrainSettings} (net0 : σ) (p : Nat) (hp : S.early = some (p, 0)) (l : Nat → ℝ) (E : Nat)
    (hl : ∀ k ≤ E, valLosses T S net0 k = (List.range k).map (fun e => some (l e))) (h1 : 1 ≤ E) (hno : ∀ k, 1 ≤ k → k < E → ¬ StopsAfter T S net0 k) (hE : StopsAfter T S net0 E) :
    ∃ k < E - 1, l k < l (E - 1) := by
  rw [C216_stops T net0 p hp l E (hl E le_rfl)] at hE
  obtain ⟨a, b, c, hab, hb, hall⟩ := hE
  obtain ⟨n, rfl⟩ : ∃ n, E = n + 1 := ⟨E - 1, by omega⟩
  have hb1 : b ≠ [] := by
    rintro rfl
    simp at hb
    omega
  rcases List.eq_nil_or_concat c with rfl | ⟨c', z, rfl⟩
  · obtain ⟨b', x, rfl⟩ := (List.eq_nil_or_concat b).resolve_left hb1
    obtain ⟨y, hy, hyx⟩ := hall x (by simp)
    rw [List.range_succ, List.map_append] at hab
    have h2 : (List.range n).map l ++ [l n] = (a ++ b') ++ [x] := by simpa using hab
    obtain ⟨h3, h4⟩ := List.append_inj' h2 rfl
    have h5 : l n = x := by simpa using h4
    have hmem : y ∈ (List.range n).map l := by rw [h3]; exact List.mem_append_left _ hy
    obtain ⟨k, hk, rfl⟩ := List.mem_map.1 hmem
    exact ⟨k, by simpa using hk, by simpa [h5] using hyx⟩
  · exfalso
    rw [List.range_succ, List.map_append] at hab
    have h2 : (List.range n).map l ++ [l n] = (a ++ b ++ c') ++ [z] := by simpa using hab
    obtain ⟨h3, h4⟩ := List.append_inj' h2 rfl
    have hn0 : 1 ≤ n := by
      by_contra hc
      have : n = 0 := by omega
      subst this
      simp at h3
      exact hb1 h3.2.1
    refine hno n hn0 (by omega) ?_
    rw [C216_stops T net0 p hp l n (hl n (by omega))]
    exact ⟨a, b, c', h3, hb, hall⟩

/-! ### Witnesses -/

/-- A network that counts epochs; the matrix is the number of epochs of the network it was computed for. -/
noncomputable def counter (f v : Nat → Option ℝ) : Trainer Nat Nat where
  solve n := n
  train n _ := (n + 1, f n)
  validate n K := if n = K then some 0 else v n
  sched n _ := n

/-- **C216 (records; violated).** With early stopping, an epoch whose training loss is `nan` disappears from the record, so that the two records have different lengths and an entry of one no longer belongs to the
entry of the other. -/
theorem C216_records_violated : ∃ (T : Trainer Nat Nat) (S : TrainSettings) (x y : List (Option ℝ)), Legal S ∧ S.record = true ∧
    (learnerFit T S ⟨none, none, none, none⟩ 0).1.fitLosses = some x ∧ (learnerFit T S ⟨none, none, none, none⟩ 0).1.valLosses = some y ∧ x.length ≠ y.length ∧
    x.length ≠ (learnerFit T S ⟨none, none, none, none⟩ 0).1.method := by
  have hS : Legal ⟨2, true, some (5, 0), false, true, true⟩ := ⟨by decide, fun _ => rfl, fun h => (nomatch h), fun _ _ => .inl (by simp)⟩
  obtain ⟨E, h1, h2, h3, h4, h5, h6, h7, h8, h9⟩ := C216_fit (counter (fun n => if n = 0 then none else some 1) (fun _ => some 1)) hS ⟨none, none, none, none⟩ 0
  have hE : E = 2 := by
    rcases h7 with h7 | ⟨p, hp, hstop⟩
    · exact h7
    · exfalso
      have : valLosses (counter (fun n => if n = 0 then none else some 1) (fun _ => some 1)) ⟨2, true, some (5, 0), false, true, true⟩ 0 E = ((List.range E).map (fun _ => (1 : ℝ))).map some := by
        unfold valLosses
        rw [List.map_map]
        apply List.map_congr_left
        intro e _
        simp [counter, trainedNet]
      cases hp
      rw [this] at hstop
      rw [C59_stop] at hstop
      obtain ⟨a, b, c, hab, hb, hall⟩ := hstop
      have := congrArg List.length hab
      simp at this hb
      have hE2 : E ≤ 2 := h2
      omega
  subst hE
  obtain ⟨e1, e2⟩ := h9 rfl (by simp)
  have hx : (trainLosses (counter (fun n => if n = 0 then none else some 1) (fun _ => some 1)) ⟨2, true, some (5, 0), false, true, true⟩ 0 2).filter (·.isSome) = [some 1] := by
    simp [trainLosses, counter, List.range_succ, netAfter, epochNet, trainedNet]
  have hy : (valLosses (counter (fun n => if n = 0 then none else some 1) (fun _ => some 1)) ⟨2, true, some (5, 0), false, true, true⟩ 0 2).filter (·.isSome) = [some 1, some 1] := by
    simp [valLosses, counter, List.range_succ, netAfter, epochNet, trainedNet]
  rw [hx] at e1
  rw [hy] at e2
  refine ⟨_, _, _, _, hS, rfl, e1, e2, by simp, ?_⟩
  rw [h4]
  simp [netAfter, epochNet, trainedNet, counter]

/-- **C216 (validation loss; violated).** The last recorded validation loss is not that of the returned model: it was computed with the system matrix of the network before the last epoch. -/
theorem C216_stale_violated : ∃ (T : Trainer Nat Nat) (S : TrainSettings) (net K : Nat) (y : List (Option ℝ)), Legal S ∧
    (learnerFit T S ⟨none, none, none, none⟩ 0).1.method = some net ∧ (learnerFit T S ⟨none, none, none, none⟩ 0).1.matrix = some K ∧
    (learnerFit T S ⟨none, none, none, none⟩ 0).1.valLosses = some y ∧ T.validate net K = some 0 ∧ y = [some 1] := by
  have hS : Legal ⟨1, true, none, true, true, true⟩ := ⟨by decide, fun h => absurd rfl h, fun _ => rfl, fun _ _ => .inr rfl⟩
  obtain ⟨E, h1, h2, h3, h4, h5, h6, h7, h8, h9⟩ := C216_fit (counter (fun _ => some 1) (fun _ => some 1)) hS ⟨none, none, none, none⟩ 0
  have hE : E = 1 := le_antisymm h2 h1
  subst hE
  obtain ⟨_, _, e2⟩ := h8 rfl rfl
  refine ⟨_, _, _, _, _, hS, h4, h5, e2 rfl, ?_, ?_⟩
  · simp [counter]
  · simp [valLosses, counter, netAfter, trainedNet]

/-- The settings of the theorems on stopping are reachable: two epochs, the second worse than the first. -/
example : ∃ (T : Trainer Nat Nat) (S : TrainSettings), Legal S ∧ S.early = some (1, 0) ∧ ¬ StopsAfter T S 0 1 ∧ StopsAfter T S 0 2 := by
  refine ⟨counter (fun _ => some 1) (fun n => some n), ⟨5, true, some (1, 0), false, true, true⟩, ⟨by decide, fun _ => rfl, fun h => (nomatch h), fun _ _ => .inl (by simp)⟩, rfl, ?_, ?_⟩
  · rw [C216_stops _ 0 1 rfl (fun e => (e : ℝ) + 1) 1 (by simp [valLosses, counter, netAfter, trainedNet])]
    rintro ⟨a, b, c, hab, hb, hall⟩
    have := congrArg List.length hab
    simp at this hb
    obtain ⟨x, hx⟩ := List.exists_mem_of_length_pos (l := b) (by omega)
    obtain ⟨y, hy, _⟩ := hall x hx
    have := List.length_pos_of_mem hy
    omega
  · rw [C216_stops _ 0 1 rfl (fun e => (e : ℝ) + 1) 2 (by simp [valLosses, counter, netAfter, trainedNet, epochNet, List.range_succ])]
    refine ⟨[1], [2], [], ?_, rfl, ?_⟩
    · simp [List.range_succ]; norm_num
    · intro x hx
      simp at hx
      subst hx
      exact ⟨1, by simp, by norm_num⟩

end Verif.Dmd
