import Verif.Dyn.System
import Verif.Dyn.SpectralProps
import Verif.Tsc.MapVal
import Mathlib.Data.Matrix.Mul
/-! # Properties C147-C149: set up of linear systems, arguments of `evolve_system`, maps applied to predictions -/

namespace Verif.Dyn

open Verif.Tsc Matrix

variable {α : Type}

/-! ### C147: set up -/

/-- The matrices that fit a system: a matrix `n × m`, and for a controlled system a control matrix `n × k`, or a tensor `n × m × k` for control affine systems. -/
def FitsSystem (controlled affine : Bool) (A : Obj α) (B : Option (Obj α)) : Prop :=
  ∃ (a : Shape α) (n m : Nat), A = .array a ∧ a.shape = [n, m] ∧
    (controlled = false → B = none) ∧
    (controlled = true → affine = false → ∃ (b : Shape α) (k : Nat), B = some (.array b) ∧ b.shape = [n, k]) ∧
    (controlled = true → affine = true → ∃ (b : Shape α) (k : Nat), B = some (.array b) ∧ b.shape = [n, m, k])

theorem isMatrix_ok {A : Obj α} {a : Shape α} : isMatrix A = .ok a ↔ A = .array a ∧ ∃ n m, a.shape = [n, m] := by
  cases A with
  | other => simp [isMatrix]
  | array b =>
    simp only [isMatrix]
    by_cases h : b.shape.length ≠ 2
    · rw [if_pos h]
      simp only [reduceCtorEq, Obj.array.injEq, false_iff, not_and]
      rintro rfl ⟨n, m, hs⟩
      rw [hs] at h
      simp at h
    · rw [if_neg h]
      push Not at h
      simp only [Except.ok.injEq, Obj.array.injEq]
      constructor
      · rintro rfl
        refine ⟨rfl, ?_⟩
        match hb : b.shape, h with
        | [n, m], _ => exact ⟨n, m, rfl⟩
      · exact fun h => h.1

theorem checkControl_ok {affine : Bool} {a : Shape α} {n m : Nat} (ha : a.shape = [n, m]) {B : Option (Obj α)} :
    checkControlMatrix affine a B = .ok () ↔ ∃ (b : Shape α) (k : Nat), B = some (.array b) ∧ b.shape = if affine then [n, m, k] else [n, k] := by
  cases B with
  | none => simp [checkControlMatrix]
  | some o => cases o with
    | other => simp [checkControlMatrix]
    | array b =>
      have key : ∀ (P : Shape α → Nat → Prop), (∃ (b' : Shape α) (k : Nat), some (Obj.array b) = some (Obj.array b') ∧ P b' k) ↔ ∃ k, P b k := by
        intro P
        constructor
        · rintro ⟨b', k, h1, h2⟩
          cases h1
          exact ⟨k, h2⟩
        · rintro ⟨k, h⟩
          exact ⟨b, k, rfl, h⟩
      rw [key]
      cases affine
      · simp only [checkControlMatrix, Bool.false_eq_true, if_false, ha]
        match b.shape with
        | [] => simp
        | [x] => simp
        | [x, y] => by_cases h : x = n <;> simp [h]
        | x :: y :: z :: l => simp
      · simp only [checkControlMatrix, if_true, ha]
        match b.shape with
        | [] => simp
        | [x] => simp
        | [x, y] => simp
        | [x, y, z] => by_cases h : x = n <;> by_cases h' : y = m <;> simp [h, h']
        | x :: y :: z :: w :: l => simp

/-- **C147 (accepted matrices).** A system that is not set up accepts exactly the matrices that fit it, and keeps them. -/
theorem C147_accepts (s : Sys α) (hs : s.isSetup = false) (A : Obj α) (B : Option (Obj α)) :
    ((setupMatrix s A B).2 = .ok () ↔ FitsSystem s.controlled s.affine A B) ∧
      (∀ a, A = .array a → (setupMatrix s A B).2 = .ok () → (setupMatrix s A B).1.sysMatrix = some a ∧ (s.controlled = true → (setupMatrix s A B).1.control = some B)) := by
  unfold setupMatrix
  rw [if_neg (by simp [hs])]
  cases hA : isMatrix A with
  | error e =>
    refine ⟨?_, by rintro a - h; cases h⟩
    simp only [reduceCtorEq, false_iff]
    rintro ⟨a, n, m, h1, h2, -⟩
    rw [isMatrix_ok.2 ⟨h1, n, m, h2⟩] at hA
    cases hA
  | ok a =>
    obtain ⟨h1, n, m, h2⟩ := isMatrix_ok.1 hA
    subst h1
    cases hc : s.controlled with
    | false =>
      simp only [Bool.false_eq_true, if_false]
      refine ⟨?_, ?_⟩
      · cases B with
        | none =>
          simp only [Option.isSome_none, Bool.false_eq_true, if_false, true_iff]
          exact ⟨a, n, m, rfl, h2, fun _ => rfl, by simp, by simp⟩
        | some b =>
          simp only [Option.isSome_some, if_true, reduceCtorEq, false_iff]
          rintro ⟨_, _, _, -, -, h, -⟩
          exact absurd (h rfl) (by simp)
      · rintro a' h -
        cases h
        exact ⟨rfl, by simp⟩
    | true =>
      simp only [if_true]
      refine ⟨?_, ?_⟩
      · rw [checkControl_ok h2]
        constructor
        · rintro ⟨b, k, hb, hbs⟩
          refine ⟨a, n, m, rfl, h2, by simp, fun _ haf => ⟨b, k, hb, by simpa [haf] using hbs⟩, fun _ haf => ⟨b, k, hb, by simpa [haf] using hbs⟩⟩
        · rintro ⟨a', n', m', h1, h3, -, h4, h5⟩
          cases h1
          rw [h2] at h3
          cases h3
          cases haf : s.affine with
          | false =>
            obtain ⟨b, k, hb, hbs⟩ := h4 rfl haf
            exact ⟨b, k, hb, by simpa using hbs⟩
          | true =>
            obtain ⟨b, k, hb, hbs⟩ := h5 rfl haf
            exact ⟨b, k, hb, by simpa using hbs⟩
      · rintro a' h -
        cases h
        exact ⟨rfl, fun _ => trivial⟩

/-- **C147 (partial: spectral mode).** Whatever happened before, an accepted set up replaces all components by the given ones, and a rejected one changes nothing. In particular a model in
spectral mode can be fitted again. -/
theorem C147_spectral_partial (s : Sys α) (Ψ ev : Obj α) (L B : Option (Obj α)) :
    ((setupSpectral s Ψ ev L B).2 = .ok () → ∃ a v, Ψ = .array a ∧ ev = .array v ∧ (setupSpectral s Ψ ev L B).1 = { s with right := some a, ev := some v, left := some L, control := some B } ∧
      (setupSpectral s Ψ ev L B).1.isSetup = true) ∧
    ((setupSpectral s Ψ ev L B).2 ≠ .ok () → (setupSpectral s Ψ ev L B).1 = s) ∧
    (∀ (a v : Shape α) (n k : Nat), s.mode = .spectral → Ψ = .array a → ev = .array v → a.shape = [n, k + 1] → v.shape = [k + 1] → (setupSpectral s Ψ ev L B).2 = .ok ()) := by
  refine ⟨?_, ?_, ?_⟩
  · unfold setupSpectral
    by_cases hm : s.mode ≠ .spectral
    · rw [if_pos hm]; intro h; cases h
    · rw [if_neg hm]
      push Not at hm
      cases hA : isMatrix Ψ with
      | error e => intro h; cases h
      | ok a =>
        cases ev with
        | other => intro h; simp [isVector] at h
        | array v =>
          cases hv : isVector (Obj.array v) with
          | error e => intro h; cases h
          | ok w =>
            have hw : w = v := by
              simp only [isVector] at hv
              split at hv
              · split at hv
                · cases hv
                · cases hv; rfl
              · cases hv
            subst hw
            simp only
            split
            · intro h; cases h
            · intro _
              exact ⟨a, w, (isMatrix_ok.1 hA).1, rfl, rfl, by simp [Sys.isSetup, hm]⟩
  · intro h
    unfold setupSpectral at h ⊢
    split
    · rfl
    · rename_i hm
      rw [if_neg hm] at h
      cases hA : isMatrix Ψ with
      | error e => rfl
      | ok a =>
        rw [hA] at h
        cases hv : isVector ev with
        | error e => rfl
        | ok v =>
          rw [hv] at h
          simp only at h ⊢
          split
          · rfl
          · rename_i hk
            rw [if_neg hk] at h
            exact absurd rfl h
  · rintro a v n k hm rfl rfl h1 h2
    simp [setupSpectral, hm, isMatrix, h1, isVector, h2]

/-- **C147 (complete attributes).** Every set up, accepted or rejected, leaves the eigenvectors and the eigenvalues both set or both not set, so that a system that is set up in spectral mode has both. -/
theorem C147_together (s : Sys α) (h : s.right.isSome = s.ev.isSome) (A Ψ ev : Obj α) (L B : Option (Obj α)) :
    (setupSpectral s Ψ ev L B).1.right.isSome = (setupSpectral s Ψ ev L B).1.ev.isSome ∧ (setupMatrix s A B).1.right.isSome = (setupMatrix s A B).1.ev.isSome := by
  constructor
  · by_cases hk : (setupSpectral s Ψ ev L B).2 = .ok ()
    · obtain ⟨a, v, -, -, h1, -⟩ := (C147_spectral_partial s Ψ ev L B).1 hk
      rw [h1]; rfl
    · rw [(C147_spectral_partial s Ψ ev L B).2.1 hk]; exact h
  · unfold setupMatrix
    split
    · exact h
    · split
      · exact h
      · split <;> exact h

/-- **C147 is false in matrix mode.** A model in matrix mode that has been fitted can never be fitted again: every later fit is rejected and the old matrices are kept. -/
theorem C147_refit_violated (s : Sys α) (hm : s.mode = .matrix) (A Ψ ev : Shape α) (L B : Option (Obj α)) (h : (refit s A Ψ ev L B).2 = .ok ()) (A' Ψ' ev' : Shape α) (L' B' : Option (Obj α)) :
    refit (refit s A Ψ ev L B).1 A' Ψ' ev' L' B' = ((refit s A Ψ ev L B).1, .error .alreadySetup) := by
  have key : (refit s A Ψ ev L B).1.isSetup = true ∧ (refit s A Ψ ev L B).1.mode = .matrix := by
    unfold refit at h ⊢
    simp only [hm] at h ⊢
    unfold setupMatrix at h ⊢
    split
    · rename_i h1; exact ⟨h1, hm⟩
    · rename_i h1
      rw [if_neg h1] at h
      cases hA : isMatrix (Obj.array A) with
      | error e => rw [hA] at h; cases h
      | ok a =>
        simp only
        split <;> exact ⟨by simp [Sys.isSetup, hm], hm⟩
  generalize (refit s A Ψ ev L B).1 = t at *
  unfold refit
  simp only [key.2]
  unfold setupMatrix
  rw [if_pos key.1]

/-- **C147 (histories).** In matrix mode the first fitting matrices stay, whatever set up functions are called later. In spectral mode, after any history, an accepted set up determines the components, also
if matrices are given later. -/
theorem C147_history (s : Sys α) (before : List (SetupCall α)) (B : Option (Obj α)) :
    (∀ (a : Shape α) (later : List (SetupCall α)), s.mode = .matrix → s.isSetup = false → FitsSystem s.controlled s.affine (.array a) B →
      (later.foldl (fun s c => (setupCall s c).1) (setupCall s (.matrix (.array a) B)).1).sysMatrix = some a ∧
        (s.controlled = true → (later.foldl (fun s c => (setupCall s c).1) (setupCall s (.matrix (.array a) B)).1).control = some B)) ∧
    (∀ (Ψ v : Shape α) (n k : Nat) (L : Option (Obj α)) (later : List (Obj α × Option (Obj α))), s.mode = .spectral → Ψ.shape = [n, k + 1] → v.shape = [k + 1] →
      ∀ s', s' = (before ++ SetupCall.spectral (.array Ψ) (.array v) L B :: later.map (fun p => SetupCall.matrix p.1 p.2)).foldl (fun s c => (setupCall s c).1) s →
        s'.right = some Ψ ∧ s'.ev = some v ∧ s'.left = some L ∧ s'.control = some B) := by
  have hmode : ∀ (s : Sys α) (c : SetupCall α), (setupCall s c).1.mode = s.mode := by
    intro s c
    cases c with
    | matrix A B =>
      simp only [setupCall, setupMatrix]
      split
      · rfl
      · split
        · rfl
        · split <;> rfl
    | spectral Ψ ev L B =>
      simp only [setupCall, setupSpectral]
      split
      · rfl
      · split
        · rfl
        · split
          · rfl
          · split <;> rfl
  have hmodes : ∀ (l : List (SetupCall α)) (s : Sys α), (l.foldl (fun s c => (setupCall s c).1) s).mode = s.mode := by
    intro l
    induction l with
    | nil => intro s; rfl
    | cons c l ih => intro s; rw [List.foldl_cons, ih, hmode]
  refine ⟨?_, ?_⟩
  · intro a later hm hs hf
    obtain ⟨h1, h2⟩ := C147_accepts s hs (.array a) B
    obtain ⟨h3, h4⟩ := h2 a rfl (h1.mpr hf)
    have hkeep : ∀ (later : List (SetupCall α)) (t : Sys α), t.mode = .matrix → t.sysMatrix.isSome = true → later.foldl (fun s c => (setupCall s c).1) t = t := by
      intro later
      induction later with
      | nil => intro t _ _; rfl
      | cons c later ih =>
        intro t ht hset
        have : (setupCall t c).1 = t := by
          cases c with
          | matrix A B => simp [setupCall, setupMatrix, Sys.isSetup, ht, hset]
          | spectral Ψ ev L B => simp [setupCall, setupSpectral, ht]
        rw [List.foldl_cons, this, ih t ht hset]
    have ht : (setupCall s (.matrix (.array a) B)).1.mode = .matrix := (hmode _ _).trans hm
    rw [hkeep later _ ht (by simp only [setupCall]; rw [h3]; rfl)]
    exact ⟨h3, h4⟩
  · intro Ψ v n k L later hm hΨ hv s' hs'
    rw [List.foldl_append, List.foldl_cons] at hs'
    have ht := hmodes before s
    rw [hm] at ht
    generalize before.foldl (fun s c => (setupCall s c).1) s = t at hs' ht
    obtain ⟨a, w, ha, hw, h1, h2⟩ := (C147_spectral_partial t (.array Ψ) (.array v) L B).1 ((C147_spectral_partial t (.array Ψ) (.array v) L B).2.2 Ψ v n k ht rfl rfl hΨ hv)
    cases ha
    cases hw
    have hkeep : ∀ (later : List (Obj α × Option (Obj α))) (t : Sys α), t.isSetup = true → (later.map (fun p => SetupCall.matrix p.1 p.2)).foldl (fun s c => (setupCall s c).1) t = t := by
      intro later
      induction later with
      | nil => intro t _; rfl
      | cons c later ih =>
        intro t ht
        have : (setupCall t (.matrix c.1 c.2)).1 = t := by simp [setupCall, setupMatrix, ht]
        rw [List.map_cons, List.foldl_cons, this, ih t ht]
    have h3 : (setupCall t (.spectral (.array Ψ) (.array v) L B)).1 = (setupSpectral t (.array Ψ) (.array v) L B).1 := rfl
    rw [h3, hkeep later _ h2] at hs'
    rw [hs', h1]
    exact ⟨rfl, rfl, rfl, rfl⟩

/-- **C147 is false after a rejected set up.** A rejected control matrix leaves the system set up with the system matrix, so that the correct matrices are rejected afterwards. -/
theorem C147_rejected_violated (s : Sys α) (hm : s.mode = .matrix) (hs : s.isSetup = false) (a : Shape α) (n m : Nat) (ha : a.shape = [n, m]) (B : Option (Obj α))
    (h : (setupMatrix s (.array a) B).2 ≠ .ok ()) (A' : Obj α) (B' : Option (Obj α)) :
    (setupMatrix s (.array a) B).1.isSetup = true ∧ (setupMatrix (setupMatrix s (.array a) B).1 A' B').2 = .error .alreadySetup := by
  have key : (setupMatrix s (.array a) B).1.isSetup = true := by
    unfold setupMatrix
    rw [if_neg (by simp [hs]), isMatrix_ok.2 ⟨rfl, n, m, ha⟩]
    simp only
    split <;> simp [Sys.isSetup, hm]
  refine ⟨key, ?_⟩
  generalize (setupMatrix s (.array a) B).1 = t at *
  unfold setupMatrix
  rw [if_pos key]

/-- **C147 is false for the left eigenvectors.** Any object is accepted as left eigenvectors. -/
theorem C147_left_violated (s : Sys α) (hm : s.mode = .spectral) (Ψ v : Shape α) (n k : Nat) (h1 : Ψ.shape = [n, k + 1]) (h2 : v.shape = [k + 1]) (L B : Option (Obj α)) :
    (setupSpectral s (.array Ψ) (.array v) L B).2 = .ok () :=
  (C147_spectral_partial s (.array Ψ) (.array v) L B).2.2 Ψ v n k hm rfl rfl h1 h2

/-- **C147 is false for the mode.** A fresh system in spectral mode accepts a system matrix without complaint, but is not set up by it: the evolution fails with a missing attribute. -/
theorem C147_mode_violated (s : Sys α) (hm : s.mode = .spectral) (hr : s.right = none) (hc : s.controlled = false) (a : Shape α) (n m : Nat) (ha : a.shape = [n, m]) (needLast : Bool) (ic : IcArg)
    (u : Option (List Nat)) (times : TimeArg) (delta : DeltaArg) (names : Option Nat) :
    (setupMatrix s (.array a) none).2 = .ok () ∧ (setupMatrix s (.array a) none).1.isSetup = false ∧
      evolveCheck (setupMatrix s (.array a) none).1 needLast ic none u times delta names = .error .noAttribute := by
  have hs : s.isSetup = false := by simp [Sys.isSetup, hm, hr]
  have h : setupMatrix s (.array a) none = ({ s with sysMatrix := some a }, .ok ()) := by
    unfold setupMatrix
    rw [if_neg (by simp [hs]), isMatrix_ok.2 ⟨rfl, n, m, ha⟩]
    simp [hc]
  rw [h]
  refine ⟨rfl, by simp [Sys.isSetup, hm, hr], ?_⟩
  simp [evolveCheck, chooseMatrix, hm, hr]

/-- A controlled matrix system and its first fit. -/
example : (refit (⟨.flowmap, .matrix, true, false, none, none, none, none, none⟩ : Sys Unit) ⟨[3, 3], ()⟩ ⟨[3, 3], ()⟩ ⟨[3], ()⟩ none (some (.array ⟨[3, 2], ()⟩))).2 = .ok () := by
  simp [refit, setupMatrix, Sys.isSetup, isMatrix, checkControlMatrix]

example : (setupMatrix (⟨.flowmap, .matrix, true, false, none, none, none, none, none⟩ : Sys Unit) (.array ⟨[3, 3], ()⟩) (some (.array ⟨[2, 2], ()⟩))).2 ≠ .ok () := by
  simp [setupMatrix, Sys.isSetup, isMatrix, checkControlMatrix]

/-! ### C148: arguments of `evolve_system` -/

/-- The documented requirements on the initial conditions: a number for a state of length one, a vector with the state, or a matrix with one state per column. -/
def IcFits (ic : IcArg) (stateLength nIc : Nat) : Prop :=
  (ic = .scalar ∧ stateLength = 1 ∧ nIc = 1) ∨ (ic = .array [stateLength] ∧ nIc = 1) ∨ ic = .array [stateLength, nIc]

theorem checkIc_ok {ic : IcArg} {m n k : Nat} : checkIc ic m = .ok (n, k) ↔ n = m ∧ IcFits ic m k := by
  unfold IcFits
  match ic with
  | .scalar => by_cases h : 1 = m <;> simp [checkIc, h] <;> omega
  | .other => simp [checkIc]
  | .array [] => simp [checkIc]
  | .array [x] => by_cases h : x = m <;> simp [checkIc, h] <;> omega
  | .array [x, y] => by_cases h : x = m <;> simp [checkIc, h] <;> omega
  | .array (x :: y :: z :: l) => simp [checkIc]

/-- The documented shapes of the control input: `(n_timesteps, n_control)` (or `(n_timesteps,)` for one control) for one initial condition, else `(n_initial_conditions, n_timesteps, n_control)`. -/
def ControlFits (u B : Option (List Nat)) (needLast : Bool) (nTimes nIc : Nat) : Prop :=
  ∃ (b : List Nat) (steps k : Nat), B = some b ∧ b.getLast? = some k ∧ (if needLast then steps else steps + 1) = nTimes ∧
    (u = some [nIc, steps, k] ∨ (u = some [steps, k] ∧ nIc = 1) ∨ (u = some [steps] ∧ k = 1 ∧ nIc = 1))

theorem checkControlInput_ok {u B : Option (List Nat)} {needLast : Bool} {nTimes nIc : Nat} :
    checkControlInput u B needLast nTimes nIc = .ok () ↔ ControlFits u B needLast nTimes nIc := by
  have key : ∀ (i n k : Nat), checkControl3 B needLast nTimes nIc i n k = .ok () ↔ i = nIc ∧ ∃ b, B = some b ∧ b.getLast? = some k ∧ (if needLast then n else n + 1) = nTimes := by
    unfold checkControl3
    intro i n k
    by_cases h1 : i = nIc
    · simp only [h1, ne_eq, not_true_eq_false, if_false, true_and]
      cases B with
      | none => simp
      | some b =>
        by_cases h2 : (if needLast then n else n + 1) = nTimes
        · by_cases h3 : b.getLast? = some k <;> simp [h2, h3]
        · simp [h2]
    · simp [h1]
  unfold ControlFits
  match u with
  | none => simp [checkControlInput]
  | some [] => simp [checkControlInput]
  | some [n] =>
    simp only [checkControlInput, key]
    constructor
    · rintro ⟨h1, b, hB, hb, hn⟩
      exact ⟨b, n, 1, hB, hb, hn, .inr (.inr ⟨rfl, rfl, h1.symm⟩)⟩
    · rintro ⟨b, st, k, hB, hb, hn, h | h | h⟩
      · simp at h
      · simp at h
      · obtain ⟨h1, rfl, rfl⟩ := h
        cases h1
        exact ⟨rfl, b, hB, hb, hn⟩
  | some [n, k] =>
    simp only [checkControlInput, key]
    constructor
    · rintro ⟨h1, b, hB, hb, hn⟩
      exact ⟨b, n, k, hB, hb, hn, .inr (.inl ⟨rfl, h1.symm⟩)⟩
    · rintro ⟨b, st, k', hB, hb, hn, h | h | h⟩
      · simp at h
      · obtain ⟨h1, rfl⟩ := h
        cases h1
        exact ⟨rfl, b, hB, hb, hn⟩
      · simp at h
  | some [i, n, k] =>
    simp only [checkControlInput, key]
    constructor
    · rintro ⟨h1, b, hB, hb, hn⟩
      exact ⟨b, n, k, hB, hb, hn, .inl (by rw [h1])⟩
    · rintro ⟨b, st, k', hB, hb, hn, h | h | h⟩
      · cases h
        exact ⟨rfl, b, hB, hb, hn⟩
      · simp at h
      · simp at h
  | some (i :: n :: k :: l :: r) => simp [checkControlInput]

/-- **C148 (partial: numbers as time values, feature names given).** For a system with a matrix `n × m` the arguments are accepted iff the initial conditions are states, the time values are a number or a vector of numbers, the
control input fits (if the system is controlled), the time delta is a positive number (for a flow map), and there are `n` feature names. -/
theorem C148_accepts_partial (s : Sys α) (needLast : Bool) (ic : IcArg) (over : Option (Obj α)) (u : Option (List Nat)) (times : TimeArg) (delta : DeltaArg) (names : Nat) {a : Shape α} {n m : Nat}
    (ha : chooseMatrix s over = .ok a) (hs : a.shape = [n, m]) (ht : ∀ shape numeric, times = .array shape numeric → numeric = true) :
    (∃ r, evolveCheck s needLast ic over u times delta (some names) = .ok r) ↔
      ∃ nIc nTimes, IcFits ic m nIc ∧ ((times = .scalar ∧ nTimes = 1) ∨ times = .array [nTimes] true) ∧
        (s.controlled = true → ControlFits u (shapeOf s.control) needLast nTimes nIc) ∧ (s.ty = .flowmap → ∃ d, delta = .number d ∧ 0 < d) ∧ names = n := by
  have htimes : ∀ k, checkTimes times = .ok k ↔ (times = .scalar ∧ k = 1) ∨ times = .array [k] true := by
    intro k
    match times, ht with
    | .scalar, _ => simp [checkTimes, eq_comm]
    | .array [] nu, ht => have := ht _ _ rfl; subst this; simp [checkTimes]
    | .array [x] nu, ht => have := ht _ _ rfl; subst this; simp [checkTimes]
    | .array (x :: y :: l) nu, ht => have := ht _ _ rfl; subst this; simp [checkTimes]
  have hdelta : (∃ d, checkDelta s.ty delta = .ok d) ↔ (s.ty = .flowmap → ∃ d, delta = .number d ∧ 0 < d) := by
    unfold checkDelta
    cases s.ty with
    | differential => simp
    | flowmap => cases delta with
      | none => simp
      | other => simp
      | number d =>
        by_cases h : d ≤ 0
        · simp [h, not_lt.2 h]
        · simp [h, not_le.1 h]
  unfold evolveCheck
  rw [ha]
  simp only [hs, List.getD_cons_zero, List.getD_cons_succ, Option.getD_some]
  cases hic : checkIc ic m with
  | error e =>
    simp only [reduceCtorEq, exists_false, false_iff, not_exists]
    rintro nIc nTimes ⟨h, -⟩
    rw [checkIc_ok.2 ⟨rfl, h⟩] at hic
    cases hic
  | ok p =>
    obtain ⟨p1, p2⟩ := p
    have hic' := (checkIc_ok.1 hic).2
    have huniq : ∀ k, IcFits ic m k → k = p2 := by
      intro k hk
      have := checkIc_ok.2 ⟨rfl, hk⟩
      rw [hic] at this
      cases this
      rfl
    simp only
    cases htm : checkTimes times with
    | error e =>
      simp only [reduceCtorEq, exists_false, false_iff, not_exists]
      rintro nIc nTimes ⟨-, h, -⟩
      rw [(htimes nTimes).2 h] at htm
      cases htm
    | ok nT =>
      have htm' := (htimes nT).1 htm
      have huniqT : ∀ k, ((times = .scalar ∧ k = 1) ∨ times = .array [k] true) → k = nT := by
        intro k hk
        have := (htimes k).2 hk
        rw [htm] at this
        cases this
        rfl
      simp only
      have hcon : ((if s.controlled = true then checkControlInput u (shapeOf s.control) needLast nT p2 else .ok ()) = .ok ()) ↔
          (s.controlled = true → ControlFits u (shapeOf s.control) needLast nT p2) := by
        by_cases h : s.controlled = true
        · simp [h, checkControlInput_ok]
        · simp [h]
      cases hcc : (if s.controlled = true then checkControlInput u (shapeOf s.control) needLast nT p2 else .ok ()) with
      | error e =>
        simp only [reduceCtorEq, exists_false, false_iff, not_exists]
        rintro nIc nTimes ⟨h1, h2, h3, -⟩
        rw [huniq _ h1, huniqT _ h2] at h3
        rw [hcon.2 h3] at hcc
        cases hcc
      | ok w =>
        have hcc' := hcon.1 hcc
        simp only
        cases hd : checkDelta s.ty delta with
        | error e =>
          simp only [reduceCtorEq, exists_false, false_iff, not_exists]
          rintro nIc nTimes ⟨-, -, -, h, -⟩
          obtain ⟨d, h⟩ := hdelta.2 h
          rw [h] at hd
          cases hd
        | ok d =>
          have hd' := hdelta.1 ⟨d, hd⟩
          simp only
          by_cases hn : names = n
          · simp only [hn, ne_eq, not_true_eq_false, if_false]
            exact ⟨fun _ => ⟨p2, nT, hic', htm', hcc', hd', trivial⟩, fun _ => ⟨_, rfl⟩⟩
          · simp only [ne_eq, hn, not_false_eq_true, if_true, reduceCtorEq, exists_false, false_iff, not_exists]
            rintro nIc nTimes ⟨-, -, -, -, h⟩
            exact h

/-- **C148 is false for the default feature names.** For every matrix that is not square (a reduced set of eigenvectors, a projection) the documented default `0, 1, ...` is rejected, whatever the other arguments are. -/
theorem C148_names_violated (s : Sys α) (needLast : Bool) (ic : IcArg) (over : Option (Obj α)) (u : Option (List Nat)) (times : TimeArg) (delta : DeltaArg) {a : Shape α} {n m : Nat}
    (ha : chooseMatrix s over = .ok a) (hs : a.shape = [n, m]) (h : n ≠ m) : ∃ e, evolveCheck s needLast ic over u times delta none = .error e := by
  cases hr : evolveCheck s needLast ic over u times delta none with
  | error e => exact ⟨e, rfl⟩
  | ok r =>
    exfalso
    unfold evolveCheck at hr
    rw [ha] at hr
    simp only [hs, List.getD_cons_zero, List.getD_cons_succ, Option.getD_none] at hr
    simp only [ne_eq, h.symm, not_false_eq_true, if_true] at hr
    repeat' split at hr
    all_goals cases hr

/-- **C148 is false for time values that are not numbers.** Arrays of any dimension with complex numbers or other objects pass the check that the documentation describes. -/
theorem C148_times_violated (shape : List Nat) : ∃ k, checkTimes (.array shape false) = .ok k := by
  simp [checkTimes]

/-- A controlled system and arguments that are accepted. -/
example : ∃ r, evolveCheck (⟨.flowmap, .matrix, true, false, some ⟨[3, 3], ()⟩, some (some (.array ⟨[3, 2], ()⟩)), none, none, none⟩ : Sys Unit) false (.array [3, 4]) none (some [4, 9, 2])
    (.array [10] true) (.number 1) (some 3) = .ok r := by
  have h : ¬ ((1 : ℚ) ≤ 0) := by norm_num
  simp [evolveCheck, chooseMatrix, checkIc, checkTimes, checkControlInput, checkControl3, shapeOf, checkDelta, h]

/-! ### C149: maps applied to predictions -/

/-- **C149 (arguments).** Additional arguments of `predict` are accepted iff there is no unknown one, and a map or modes (not both) come with the names of the new features, for systems in spectral mode. -/
theorem C149_arguments (mode : SysMode) (p : PredictParams) :
    readPredictParams mode p = .ok () ↔ p.others = false ∧ ¬ (p.postMap = true ∧ p.modes = true) ∧ (p.postMap = true ∨ p.modes = true → p.columns = true ∧ mode = .spectral) := by
  obtain ⟨a, b, c, d⟩ := p
  cases mode <;> cases a <;> cases b <;> cases c <;> cases d <;> decide

theorem reV_mulVec {ι κ : Type} [Fintype ι] (P : Matrix κ ι ℝ) (z : ι → ℂ) : (fun i => ((P.map (fun a => (a : ℂ))) *ᵥ z) i |>.re) = P *ᵥ (fun i => (z i).re) := by
  funext i
  simp [mulVec, dotProduct, Complex.re_sum]

/-- **C149 (map of a prediction).** The prediction with a map is the map applied to each state of the prediction without, with the same IDs and time values; both raise the same exceptions. -/
theorem C149_post_map {ι κ ρ : Type} [Fintype ι] [Fintype κ] [Fintype ρ] (P : Matrix κ ι ℝ) (Ψ : Matrix ι ρ ℂ) (ev : ρ → ℂ) (spec : (ι → ℝ) → (ρ → ℂ)) (dt : Int) (X : List (Row Int (ι → ℝ)))
    (times : List Int) : predictSpectral (postMapModes P Ψ) ev spec dt X times = (predictSpectral Ψ ev spec dt X times).map (mapVal (fun x => P *ᵥ x)) := by
  unfold predictSpectral
  rw [← evolveFrame_map]
  congr 1
  funext ics norm
  simp only [flowmapSpectral, List.map_map]
  congr 1
  funext b
  simp only [Function.comp_apply, List.map_map]
  congr 1
  funext t
  simp only [Function.comp_apply, postMapModes, ← mulVec_mulVec]
  exact reV_mulVec P _

/-- **C149 is false for the overwritten matrix in matrix mode.** Overwriting the system matrix by `P A` (the example of the documentation) does not apply `P` to the states: the first state is not mapped at all, and the later ones are powers of `P A`. -/
theorem C149_matrix_violated {ι : Type} [Fintype ι] [DecidableEq ι] (P A : Matrix ι ι ℝ) (x : ι → ℝ) {dt : Int} (hdt : 0 < dt) :
    flowmapMatrix (P * A) [x] [0, dt, 2 * dt] dt = [[x, P *ᵥ (A *ᵥ x), P *ᵥ (A *ᵥ (P *ᵥ (A *ᵥ x)))]] := by
  have h1 : stepCount dt dt = 1 := by simp [stepCount, Int.ediv_self hdt.ne']
  have h2 : stepCount dt (2 * dt) = 2 := by simp [stepCount, Int.mul_ediv_cancel _ hdt.ne']
  have h0 : stepCount dt 0 = 0 := by simp [stepCount]
  simp [flowmapMatrix, h0, h1, h2, pow_two, mulVec_mulVec, Matrix.mul_assoc]

/-- **C149 is false for controlled systems in spectral mode.** With the map `2` the system `x' = x + u` is predicted as `x' = 2 x + u`, started at `2 x`: from zero with input one the mapped state after one step is 1 and not 2. -/
theorem C149_controlled_violated :
    flowmapSpectralControlled (postMapModes (2 : Matrix (Fin 1) (Fin 1) ℝ) (1 : Matrix (Fin 1) (Fin 1) ℂ)) 1 (fun _ => 1) (1 : Matrix (Fin 1) (Fin 1) ℝ) [fun _ => 0] [[fun _ => 1]] [0, 1] = [[fun _ => 0, fun _ => 1]] ∧
    (2 : Matrix (Fin 1) (Fin 1) ℝ) *ᵥ ((1 : Matrix (Fin 1) (Fin 1) ℝ) *ᵥ (fun _ => 0) + (1 : Matrix (Fin 1) (Fin 1) ℝ) *ᵥ (fun _ => 1)) = fun _ => 2 := by
  constructor
  · simp only [flowmapSpectralControlled, List.zipWith_cons_cons, List.zipWith_nil_left, List.tail_cons]
    simp only [spectralControlledLoop, List.cons.injEq, and_true]
    have h1 : reV (postMapModes (2 : Matrix (Fin 1) (Fin 1) ℝ) (1 : Matrix (Fin 1) (Fin 1) ℂ) *ᵥ fun _ => 0) = fun _ => 0 := by
      have : (fun _ : Fin 1 => (0 : ℂ)) = 0 := rfl
      rw [this, mulVec_zero]
      funext i
      simp [reV]
    refine ⟨h1, ?_⟩
    rw [h1]
    have : toC (fun _ : Fin 1 => (0 : ℝ)) = 0 := by funext i; simp [toC]
    rw [this, mulVec_zero, zero_add]
    funext i
    simp [reV, spectralControlledLoop.toC', toCM, Matrix.map_one]
  · funext i
    have h2 : (2 : Matrix (Fin 1) (Fin 1) ℝ) = diagonal (fun _ => 2) := (diagonal_ofNat' 2).symm
    rw [one_mulVec, one_mulVec, h2]
    simp [mulVec_diagonal]

end Verif.Dyn
