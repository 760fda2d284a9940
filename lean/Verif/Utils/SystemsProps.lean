import Verif.Utils.Systems
import Mathlib.Tactic.Linarith
import Mathlib.Tactic.NormNum
import Mathlib.Tactic.Ring
import Mathlib.Tactic.Module
import Mathlib.Data.List.Induction
import Mathlib.Data.Finset.Card
import Mathlib.Data.Int.Basic
/-!
# C60, C61, C114: control input of simulated systems and the Runge-Kutta step
-/

namespace Verif.Utils

/-! ## Specification -/

/-- Sampling interval `k` contains `t`: the `k`-th sampling time is not after `t` and all later ones are. -/
def InInterval {τ : Type} [LinearOrder τ] (times : List τ) (k : Nat) (t : τ) : Prop :=
  (∃ a, times[k]? = some a ∧ a ≤ t) ∧ ∀ k' a, k < k' → times[k']? = some a → t < a

/-- The classical fourth order Runge-Kutta step. -/
noncomputable def classicalRK4 {E : Type} [AddCommGroup E] [Module ℝ E] (f : E → E) (x : E) (h : ℝ) : E :=
  let k1 := f x
  let k2 := f (x + (h / 2) • k1)
  let k3 := f (x + (h / 2) • k2)
  let k4 := f (x + h • k3)
  x + (h / 6) • (k1 + (2 : ℝ) • k2 + (2 : ℝ) • k3 + k4)

/-! ## Helper lemmas -/

section Control

variable {τ V : Type} [LinearOrder τ]

theorem interpPrevious_none (times : List τ) (vals : List V) (t : τ)
    (h : ∀ (k : Nat) (a : τ), times[k]? = some a → t < a) : interpPrevious times vals t = none := by
  cases times with
  | nil => simp [interpPrevious]
  | cons a ts =>
    cases vals with
    | nil => simp [interpPrevious]
    | cons v vs =>
      have := h 0 a rfl
      simp [interpPrevious, not_le.mpr this]

theorem interpPrevious_eq (times : List τ) (vals : List V) (t : τ) (hs : times.Pairwise (· < ·)) (k : Nat) (v : V)
    (hk : InInterval times k t) (hv : vals[k]? = some v) : interpPrevious times vals t = some v := by
  induction times generalizing vals k with
  | nil => simp [InInterval] at hk
  | cons a ts ih =>
    cases vals with
    | nil => simp at hv
    | cons w vs =>
      obtain ⟨⟨b, hb, hbt⟩, hlater⟩ := hk
      rw [List.pairwise_cons] at hs
      cases k with
      | zero =>
        simp only [List.getElem?_cons_zero, Option.some.injEq] at hb hv
        subst hb hv
        have : interpPrevious ts vs t = none := interpPrevious_none _ _ _ fun k' c hc => hlater (k' + 1) c (by omega) (by simpa using hc)
        simp [interpPrevious, hbt, this]
      | succ k =>
        simp only [List.getElem?_cons_succ] at hb hv
        have h1 : interpPrevious ts vs t = some v :=
          ih vs hs.2 k ⟨⟨b, hb, hbt⟩, fun k' c h2 hc => hlater (k' + 1) c (by omega) (by simpa using hc)⟩ hv
        have : a ≤ t := (hs.1 b (List.mem_of_getElem? hb)).le.trans hbt
        simp [interpPrevious, this, h1]

theorem column_get (rows : List (List V)) (n j : Nat) (hj : j < n) (h : ∀ r ∈ rows, r.length = n) (k : Nat) :
    (column rows j)[k]? = rows[k]?.bind (fun r => r[j]?) := by
  unfold column
  induction rows generalizing k with
  | nil => simp
  | cons r rows ih =>
    have hr : r.length = n := h r (by simp)
    have hrj : r[j]? = some r[j] := List.getElem?_eq_getElem (by omega)
    rw [List.filterMap_cons_some (f := fun r : List V => r[j]?) hrj]
    cases k with
    | zero => simp [hrj]
    | succ k => simpa using ih (fun r hr => h r (by simp [hr])) k

theorem controlClosures_eq (times : List τ) (rows : List (List V)) (n : Nat) :
    controlClosures times rows n = (List.replicate n (fun cell t => interpPrevious times (column rows cell) t), n - 1) := by
  induction n with
  | zero => rfl
  | succ n ih =>
    unfold controlClosures at ih ⊢
    rw [List.range_succ, List.foldl_append, ih]
    simp [List.replicate_succ']

theorem sampledControl_eq (times : List τ) (rows : List (List V)) (n : Nat) (t : τ) :
    sampledControl times rows n t = List.replicate n (interpPrevious times (column rows (n - 1)) t) := by
  unfold sampledControl
  rw [controlClosures_eq]
  simp

theorem flatten_singletons {α : Type} (l : List (List α)) (h : ∀ s ∈ l, s.length = 1) (i : Nat) :
    l.flatten[i]? = l[i]?.bind (fun s => s[0]?) := by
  induction l generalizing i with
  | nil => simp
  | cons s l ih =>
    obtain ⟨a, rfl⟩ := List.length_eq_one_iff.mp (h s (by simp))
    cases i with
    | zero => simp
    | succ i => simpa using ih (fun s hs => h s (by simp [hs])) i

/-- What `odeControl` returns, for admissible control. -/
theorem odeControl_eq (tv : List τ) (U : List (List (List V))) (n i : Nat) (t : τ) (u : List (Option V))
    (h : odeControl tv U n i t = .ok u) :
    (∀ s ∈ U, ∀ r ∈ s, r.length = n) ∧ (∀ s ∈ U, s.length = tv.length - 1) ∧
      (tv.length = 2 → ∃ s, U[i]? = some s ∧ ∃ r, s[0]? = some r ∧ u = r.map some) ∧
      (tv.length ≠ 2 → ∃ s, U[i]? = some s ∧ u = sampledControl tv.dropLast s n t) := by
  unfold odeControl at h
  split at h
  · cases h
  rename_i h1
  split at h
  · cases h
  rename_i h2
  have h1' : ∀ s ∈ U, ∀ r ∈ s, r.length = n := by simpa using h1
  have h2' : ∀ s ∈ U, s.length = tv.length - 1 := by simpa using h2
  refine ⟨h1', h2', fun h3 => ?_, fun h3 => ?_⟩
  · rw [if_pos h3, flatten_singletons U (fun s hs => by rw [h2' s hs, h3])] at h
    cases hU : U[i]? with
    | none => simp [hU] at h
    | some s =>
      have hs : s.length = 1 := by rw [h2' s (List.mem_of_getElem? hU), h3]
      obtain ⟨r, rfl⟩ := List.length_eq_one_iff.mp hs
      refine ⟨[r], rfl, r, rfl, ?_⟩
      simp [hU] at h
      exact h.symm
  · rw [if_neg h3] at h
    cases hU : U[i]? with
    | none => simp [hU] at h
    | some s =>
      refine ⟨s, rfl, ?_⟩
      simp [hU] at h
      exact h.symm

theorem inInterval_lt (times : List τ) (k : Nat) (t : τ) (h : InInterval times k t) : k < times.length := by
  obtain ⟨⟨a, ha, -⟩, -⟩ := h
  exact (List.getElem?_eq_some_iff.mp ha).1

end Control

/-! ## Property theorems -/

section Control

variable {τ V : Type} [LinearOrder τ]

/-- C60, the part that holds: with a single control channel, or for one step predictions with any number of channels,
the right-hand side of initial condition `i` receives in each channel `j` at each time `t` in the `k`-th sampling
interval the entry `U[k, j]` of the `i`-th control time series. Missing: several channels with more than one step (false, `C60_violated`). -/
theorem C60_channels_partial (tv : List τ) (U : List (List (List V))) (n i : Nat) (t : τ) (u : List (Option V))
    (htv : tv.Pairwise (· < ·)) (h : odeControl tv U n i t = .ok u) (hn : n = 1 ∨ tv.length = 2) (k : Nat)
    (hk : InInterval tv.dropLast k t) :
    u.length = n ∧ ∀ j < n, ∃ s r v, U[i]? = some s ∧ s[k]? = some r ∧ r[j]? = some v ∧ u[j]? = some (some v) := by
  obtain ⟨h1, h2, h3, h4⟩ := odeControl_eq tv U n i t u h
  have hkl := inInterval_lt _ _ _ hk
  rw [List.length_dropLast] at hkl
  by_cases h5 : tv.length = 2
  · obtain ⟨s, hs, r, hr, rfl⟩ := h3 h5
    have hrn := h1 s (List.mem_of_getElem? hs) r (List.mem_of_getElem? hr)
    refine ⟨by simpa using hrn, fun j hj => ?_⟩
    have hk0 : k = 0 := by omega
    subst hk0
    exact ⟨s, r, r[j], hs, hr, List.getElem?_eq_getElem _, by simp [List.getElem?_map, hrn, hj]⟩
  · obtain rfl : n = 1 := hn.resolve_right h5
    obtain ⟨s, hs, rfl⟩ := h4 h5
    rw [sampledControl_eq]
    refine ⟨by simp, fun j hj => ?_⟩
    obtain rfl : j = 0 := by omega
    have hsl := h2 s (List.mem_of_getElem? hs)
    have hrn := h1 s (List.mem_of_getElem? hs)
    have hsk : s[k]? = some s[k] := List.getElem?_eq_getElem (by omega)
    have hr1 := hrn s[k] (List.getElem_mem _)
    refine ⟨s, s[k], (s[k])[0], hs, hsk, List.getElem?_eq_getElem _, ?_⟩
    have hcol : (column s 0)[k]? = some (s[k])[0] := by
      rw [column_get s 1 0 (by omega) hrn, hsk]
      simp
    have := interpPrevious_eq tv.dropLast (column s 0) t (htv.sublist (List.dropLast_sublist _)) k _ hk hcol
    simp [this]

/-- C60, what happens instead: whatever the number of channels, with more than one step every channel receives the
entries of the last column of the control input. -/
theorem C60_last_column (tv : List τ) (U : List (List (List V))) (n i : Nat) (t : τ) (u : List (Option V))
    (htv : tv.Pairwise (· < ·)) (h : odeControl tv U n i t = .ok u) (hsteps : tv.length ≠ 2) (k : Nat)
    (hk : InInterval tv.dropLast k t) (j : Nat) (hj : j < n) :
    ∃ s r v, U[i]? = some s ∧ s[k]? = some r ∧ r[n - 1]? = some v ∧ u[j]? = some (some v) := by
  obtain ⟨h1, h2, -, h4⟩ := odeControl_eq tv U n i t u h
  have hkl := inInterval_lt _ _ _ hk
  rw [List.length_dropLast] at hkl
  obtain ⟨s, hs, rfl⟩ := h4 hsteps
  rw [sampledControl_eq]
  have hsl := h2 s (List.mem_of_getElem? hs)
  have hrn := h1 s (List.mem_of_getElem? hs)
  have hsk : s[k]? = some s[k] := List.getElem?_eq_getElem (by omega)
  have hr1 := hrn s[k] (List.getElem_mem _)
  refine ⟨s, s[k], (s[k])[n - 1], hs, hsk, List.getElem?_eq_getElem _, ?_⟩
  have hcol : (column s (n - 1))[k]? = some (s[k])[n - 1] := by
    rw [column_get s n (n - 1) (by omega) hrn, hsk]
    simp [hr1]
  have := interpPrevious_eq tv.dropLast (column s (n - 1)) t (htv.sublist (List.dropLast_sublist _)) k _ hk hcol
  simp [this, hj]

/-- C60 is false: two channels with the values 1 and 2; the first channel receives 2. -/
theorem C60_violated : ∃ (tv : List Int) (U : List (List (List Int))) (u : List (Option Int)),
    tv.Pairwise (· < ·) ∧ odeControl tv U 2 0 0 = .ok u ∧ InInterval tv.dropLast 0 0 ∧
      ¬ ∃ s r v, U[0]? = some s ∧ s[0]? = some r ∧ r[0]? = some v ∧ u[0]? = some (some v) := by
  refine ⟨[0, 1, 2], [[[1, 2], [1, 2]]], [some 2, some 2], by decide, by decide, ?_, ?_⟩
  · refine ⟨⟨0, rfl, le_refl _⟩, fun k' a hk ha => ?_⟩
    rcases k' with _ | _ | k'
    · omega
    · simp at ha
      omega
    · simp at ha
  · rintro ⟨s, r, v, h1, h2, h3, h4⟩
    simp at h1
    subst h1
    simp at h2
    subst h2
    simp at h3 h4
    omega

/-- Non-vacuity of `C60_channels_partial` and `C60_last_column`. -/
example : odeControl [0, 1, 2] [[[5], [6]], [[7], [8]]] 1 1 (1 : Int) = .ok [some (8 : Int)] ∧
    InInterval ([0, 1, 2] : List Int).dropLast 1 1 := by
  refine ⟨by decide, ⟨1, rfl, le_refl _⟩, fun k' a hk ha => ?_⟩
  have : k' < 2 := (List.getElem?_eq_some_iff.mp ha).1
  omega

example : odeControl [0, 1] [[[5, 6]], [[7, 8]]] 2 1 (0 : Int) = .ok [some (7 : Int), some 8] := by decide

end Control

section RungeKutta

variable {E : Type} [AddCommGroup E] [Module ℝ E]

/-- C61, the part that holds: the step is the classical one exactly if the right-hand side takes the same value at
`x + dt * k1` and `x + dt * k3`, e.g. for a constant right-hand side. -/
theorem C61_rk4_partial (f : E → E) (x : E) (dt : ℝ) (hdt : dt ≠ 0) :
    rungeKutta f x dt = classicalRK4 f x dt ↔
      f (x + dt • f x) = f (x + dt • f (x + (dt / 2) • f (x + (dt / 2) • f x))) := by
  unfold rungeKutta classicalRK4
  simp only [add_right_inj]
  constructor
  · intro h
    have h6 : dt / 6 ≠ 0 := by positivity
    have := congrArg (fun z => (dt / 6)⁻¹ • z) h
    simp only [smul_smul, inv_mul_cancel₀ h6, one_smul, add_right_inj] at this
    exact this
  · intro h
    rw [h]

/-- C61, the part that holds: for a linear right-hand side `f x = A x` the step agrees with the exact solution
`exp(dt A) x` up to the second order; the third order term has the factor 1/12 instead of 1/6. -/
theorem C61_linear_partial (A : E →ₗ[ℝ] E) (x : E) (dt : ℝ) :
    rungeKutta A x dt = x + dt • A x + (dt ^ 2 / 2) • A (A x) + (dt ^ 3 / 12) • A (A (A x)) := by
  unfold rungeKutta
  simp only [map_add, map_smul]
  module

/-- The classical step on a linear right-hand side agrees up to the fourth order (what C61 asks for). -/
theorem classicalRK4_linear (A : E →ₗ[ℝ] E) (x : E) (dt : ℝ) :
    classicalRK4 A x dt = x + dt • A x + (dt ^ 2 / 2) • A (A x) + (dt ^ 3 / 6) • A (A (A x)) + (dt ^ 4 / 24) • A (A (A (A x))) := by
  unfold classicalRK4
  simp only [map_add, map_smul]
  module

end RungeKutta

/-- C61 is false, also for the system itself: for the DC motor with control 0 a step of length 1 from the origin differs
from the classical step. -/
theorem C61_violated : ∃ (u : ℝ) (x : ℝ × ℝ) (dt : ℝ), rungeKutta (dcMotor u) x dt ≠ classicalRK4 (dcMotor u) x dt := by
  refine ⟨0, (0, 0), 1, fun h => ?_⟩
  rw [C61_rk4_partial _ _ _ one_ne_zero] at h
  have := congrArg Prod.fst h
  simp only [dcMotor, Prod.smul_mk, Prod.mk_add_mk, smul_eq_mul] at this
  norm_num at this

/-- Non-vacuity of `C61_rk4_partial`: constant right-hand side. -/
example : rungeKutta (fun _ : ℝ => (3 : ℝ)) 1 2 = classicalRK4 (fun _ => 3) 1 2 := (C61_rk4_partial _ _ _ two_ne_zero).mpr rfl

section Vectorize

theorem everyNth_blocks {α : Type} (n i : Nat) (hi : i < n) (blocks : List (List α)) (h : ∀ b ∈ blocks, b.length = n) :
    everyNth n i blocks.flatten = blocks.filterMap (fun b => b[i]?) := by
  unfold everyNth
  induction blocks with
  | nil => simp [stepSlice]
  | cons b blocks ih =>
    have hb : b.length = n := h b (by simp)
    have hbi : b[i]? = some b[i] := List.getElem?_eq_getElem (by omega)
    rw [List.filterMap_cons_some (f := fun b : List α => b[i]?) hbi, List.flatten_cons, List.drop_append_of_le_length (by omega),
      List.drop_eq_getElem_cons (by omega : i < b.length), List.cons_append, stepSlice, List.drop_append,
      List.drop_eq_nil_of_le (by simp; omega)]
    have : n - 1 - (b.drop (i + 1)).length = i := by simp; omega
    rw [this, List.nil_append, ih fun b hb => h b (by simp [hb])]

theorem vectorLoop_get {E C : Type} (step : E → C → E) (ctrl : List (List C)) (n : Nat) (h : ∀ b ∈ ctrl, b.length = n)
    (x0 : List E) (hx : x0.length = ctrl.length) (m : Nat) (hm : m ≤ n) :
    let r := (List.range m).foldl (fun acc i => acc ++ [List.zipWith step (acc.getLastD []) (everyNth n i ctrl.flatten)]) [x0]
    r.length = m + 1 ∧ ∀ k ≤ m, r[k]? = some (List.zipWith (fun x b => (b.take k).foldl step x) x0 ctrl) := by
  induction m with
  | zero =>
    refine ⟨rfl, fun k hk => ?_⟩
    obtain rfl : k = 0 := by omega
    simp only [List.range_zero, List.foldl_nil, List.getElem?_cons_zero, List.take_zero, Option.some.injEq]
    refine List.ext_getElem (by simp [hx]) fun i h1 h2 => by simp
  | succ m ih =>
    obtain ⟨h1, h2⟩ := ih (by omega)
    rw [List.range_succ, List.foldl_append]
    generalize (List.range m).foldl (fun acc i => acc ++ [List.zipWith step (acc.getLastD []) (everyNth n i ctrl.flatten)]) [x0] = r at h1 h2
    simp only [List.foldl_cons, List.foldl_nil]
    refine ⟨by simp [h1], fun k hk => ?_⟩
    by_cases hkm : k ≤ m
    · rw [List.getElem?_append_left (by omega)]
      exact h2 k hkm
    · obtain rfl : k = m + 1 := by omega
      rw [List.getElem?_append_right (by omega), h1, Nat.sub_self, List.getElem?_cons_zero, Option.some.injEq]
      have hlast : r.getLastD [] = List.zipWith (fun x b => (b.take m).foldl step x) x0 ctrl := by
        rw [List.getLastD_eq_getLast?, List.getLast?_eq_getElem?, h1, Nat.add_sub_cancel, h2 m le_rfl]
        rfl
      rw [hlast, everyNth_blocks n m (by omega) ctrl h]
      have hget : ∀ i : Nat, (ctrl.filterMap (fun b => b[m]?))[i]? = ctrl[i]?.bind (fun b => b[m]?) :=
        column_get ctrl n m (by omega) h
      refine List.ext_getElem? fun i => ?_
      rw [List.getElem?_zipWith, List.getElem?_zipWith, List.getElem?_zipWith, hget]
      cases hx0 : x0[i]? with
      | none => simp
      | some x =>
        cases hc : ctrl[i]? with
        | none => simp
        | some b =>
          have hb : b.length = n := h b (List.mem_of_getElem? hc)
          have hbm : b[m]? = some b[m] := List.getElem?_eq_getElem (by omega)
          simp only [Option.bind_some, hbm, List.take_add_one, Option.toList_some, List.foldl_append, List.foldl_cons, List.foldl_nil]

/-- C114: whenever `predict_vectorize` returns, it returns one state more than control inputs, and at each time step `k` the
state of each time series `s` is reached from its own initial condition by stepping with its own first `k` control
inputs, one after the other; no time series sees the control input of another one. -/
theorem C114_own_control {E C : Type} (step : Int → E → C → E) (x0 : List E) (U : List (List (Int × C)))
    (tv : Option (List Int)) (times : List Int) (X : List (List E)) (h : predictVectorize step x0 U tv = .ok (times, X)) :
    ∃ (n : Nat) (dt : Int), x0.length = U.length ∧ (∀ s ∈ U, s.length = n) ∧ X.length = n + 1 ∧
      (∀ k ≤ n, ∃ Xk, X[k]? = some Xk ∧ Xk.length = U.length ∧ ∀ (s : Nat) (us : List (Int × C)) (x : E), U[s]? = some us → x0[s]? = some x →
        Xk[s]? = some (((us.map (·.2)).take k).foldl (step dt) x)) := by
  unfold predictVectorize at h
  split at h
  · cases h
  rename_i hlen
  have hlen' : x0.length = U.length := not_not.mp hlen
  split at h
  · cases h
  rename_i _ s rest
  split at h
  · cases h
  rename_i hany
  have heq : ∀ r ∈ s :: rest, r.length = s.length := by simpa using hany
  have hflat : ((s :: rest).flatten.map (·.2)) = ((s :: rest).map (fun r => r.map (·.2))).flatten := by
    rw [List.map_flatten]
  have key : ∀ dt : Int, X = vectorLoop (step dt) ((s :: rest).flatten.map (·.2)) s.length x0 →
      ∃ (n : Nat) (dt : Int), x0.length = (s :: rest).length ∧ (∀ r ∈ s :: rest, r.length = n) ∧ X.length = n + 1 ∧
      (∀ k ≤ n, ∃ Xk, X[k]? = some Xk ∧ Xk.length = (s :: rest).length ∧ ∀ (i : Nat) (us : List (Int × C)) (x : E), (s :: rest)[i]? = some us → x0[i]? = some x →
        Xk[i]? = some (((us.map (·.2)).take k).foldl (step dt) x)) := by
    intro dt hX
    rw [hflat] at hX
    have := vectorLoop_get (step dt) ((s :: rest).map (fun r => r.map (·.2))) s.length
      (by
        intro b hb
        obtain ⟨r, hr, rfl⟩ := List.mem_map.mp hb
        rw [List.length_map]
        exact heq r hr) x0 (by rw [List.length_map]; exact hlen') s.length le_rfl
    change (vectorLoop _ _ _ _).length = _ ∧ ∀ k ≤ s.length, (vectorLoop _ _ _ _)[k]? = _ at this
    rw [← hX] at this
    refine ⟨s.length, dt, hlen', heq, this.1, fun k hk => ⟨_, this.2 k hk, ?_, fun i us x hi hx => ?_⟩⟩
    · rw [List.length_zipWith, List.length_map, hlen', min_self]
    · rw [List.getElem?_zipWith, hx, List.getElem?_map, hi]
      rfl
  dsimp only at h
  split at h
  · split at h
    · rename_i a b
      cases h
      exact key (b - a) rfl
    · cases h
  · split at h
    · cases h
    · rename_i dt _
      split at h
      · cases h
      · cases h
        exact key dt rfl

/-- C114, time values: a prediction over more than one step is only returned if all control time series share the same
time values; the prediction has these and one more, one step after the last. -/
theorem C114_time_values {E C : Type} (step : Int → E → C → E) (x0 : List E) (U : List (List (Int × C)))
    (tv : Option (List Int)) (times : List Int) (X : List (List E)) (hsorted : ∀ s ∈ U, (s.map (·.1)).Pairwise (· < ·))
    (hlen : ∃ s ∈ U, 2 ≤ s.length) (h : predictVectorize step x0 U tv = .ok (times, X)) :
    ∃ dt, ∀ s ∈ U, times = s.map (·.1) ++ [(s.map (·.1)).getLastD 0 + dt] ∧
      ∀ p ∈ List.zip (s.map (·.1)) (s.map (·.1)).tail, p.2 - p.1 = dt := by
  unfold predictVectorize at h
  split at h
  · cases h
  split at h
  · cases h
  rename_i s rest _
  split at h
  · cases h
  rename_i hany
  have heq : ∀ r ∈ s :: rest, r.length = s.length := by simpa using hany
  have hs2 : 2 ≤ s.length := by
    obtain ⟨r, hr, h2⟩ := hlen
    rw [← heq r hr]
    exact h2
  dsimp only at h
  rw [if_neg (by omega)] at h
  split at h
  · cases h
  rename_i dt hdt
  split at h
  · cases h
  rename_i hall
  refine ⟨dt, fun r hr => ?_⟩
  have hset : (r.map (·.1)).toFinset = ((s :: rest).flatten.map (·.1)).toFinset := by
    refine Finset.eq_of_subset_of_card_le ?_ ?_
    · intro a ha
      rw [List.mem_toFinset] at ha ⊢
      obtain ⟨p, hp, rfl⟩ := List.mem_map.mp ha
      exact List.mem_map.mpr ⟨p, List.mem_flatten.mpr ⟨r, hr, hp⟩, rfl⟩
    · rw [List.toFinset_card_of_nodup ((hsorted r hr).imp fun hab => ne_of_lt hab), List.length_map, heq r hr]
      rw [Finset.length_sort] at hall
      omega
  have hsort : ((s :: rest).flatten.map (·.1)).toFinset.sort (· ≤ ·) = r.map (·.1) := by
    rw [← hset]
    exact (List.toFinset_sort (· ≤ ·) ((hsorted r hr).imp fun hab => ne_of_lt hab)).mpr
      ((hsorted r hr).imp fun hab => le_of_lt hab)
  rw [hsort] at h
  cases h
  refine ⟨rfl, fun p hp => ?_⟩
  unfold constStep at hdt
  have hmem : p.2 - p.1 ∈ ((s :: rest).map (fun r => r.map (·.1))).flatMap (fun l => List.zipWith (fun a b => b - a) l l.tail) := by
    refine List.mem_flatMap.mpr ⟨r.map (·.1), List.mem_map.mpr ⟨r, hr, rfl⟩, ?_⟩
    rw [← List.map_uncurry_zip_eq_zipWith]
    exact List.mem_map.mpr ⟨p, hp, rfl⟩
  split at hdt
  · cases hdt
  · rename_i d l hd
    rw [hd] at hmem
    split at hdt
    · rename_i hl
      cases hdt
      rcases List.mem_cons.mp hmem with h1 | h1
      · exact h1
      · have := List.all_eq_true.mp hl _ h1
        simpa using this
    · cases hdt

/-- Non-vacuity of C114: two time series, two control inputs each. -/
example : ∃ times X, predictVectorize (fun dt (x u : Int) => x + dt * u) [0, 10] [[(0, 1), (2, 2)], [(0, 3), (2, 4)]] none =
    .ok (times, X) := by
  unfold predictVectorize
  have h1 : constStep [[0, 2], [0, 2]] = some 2 := by decide
  have h2 : ([0, 2, 0, 2] : List Int).toFinset = [0, 2].toFinset := by decide
  have h3 : ([0, 2] : List Int).toFinset.sort (· ≤ ·) = [0, 2] := (List.toFinset_sort (· ≤ ·) (by decide)).mpr (by decide)
  simp [h1, h2, h3]

end Vectorize

end Verif.Utils
