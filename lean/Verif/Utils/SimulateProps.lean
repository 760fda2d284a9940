import Verif.Utils.Simulate
import Verif.Tsc.IcProps
import Verif.Tsc.MetricProps
import Verif.Tsc.InitCondProps
import Verif.Tsc.TimeOpsProps
import Verif.Tsc.StatesProps
/-! # Properties of simulations (C138, C139) -/

namespace Verif.Utils

open Verif.Np Verif.Tsc

variable {E W : Type}

theorem exBind_ok {ε α β : Type} {x : Except ε α} {f : α → Except ε β} {b : β} : x.bind f = .ok b ↔ ∃ a, x = .ok a ∧ f a = .ok b := by
  cases x <;> simp [Except.bind]

theorem ofTsc_ok {α : Type} {x : Except TscErr α} {a : α} : ofTsc x = .ok a ↔ x = .ok a := by
  cases x <;> simp [ofTsc]

theorem timesOk_iff (l : List Int) : timesOk l = true ↔ (∀ t ∈ l, 0 ≤ t) ∧ l.Pairwise (· < ·) := by
  simp [timesOk]

theorem oneSample_iff {V : Type} {c : List (Row Int V)} (hc : c ≠ []) :
    (nTimesteps c).values.any (fun n => n != 1) = false ↔ ∀ i, HasId c i → (series c i).length = 1 := by
  rw [List.any_eq_false]
  match h : nTimesteps c with
  | .one k =>
    have hk := (nTimesteps_one hc k).1 h
    obtain ⟨i0, t, hi⟩ := List.ne_nil_iff_exists_cons.1 (ids_ne_nil hc)
    have hi0 : i0 ∈ ids c := by rw [hi]; simp
    simp only [PerId.values, List.mem_singleton, forall_eq, bne_iff_ne, ne_eq, not_not]
    constructor
    · intro h1 i h2
      rw [hk i (mem_ids.2 h2), h1]
    · intro h1
      rw [← hk i0 hi0]; exact h1 i0 (mem_ids.1 hi0)
  | .per l =>
    have hl := nTimesteps_per h
    simp only [PerId.values, hl, List.map_map, List.mem_map, Function.comp_apply, bne_iff_ne, ne_eq, not_not]
    constructor
    · intro h1 i hi
      exact h1 _ ⟨i, mem_ids.2 hi, rfl⟩
    · rintro h1 m ⟨i, hi, rfl⟩
      exact h1 i (mem_ids.1 hi)

theorem solveFrame_ok {solve : E → List Int → Option (List E)} {tv : List Int} {x : E} {f : List (Int × E)} :
    solveFrame solve tv x = .ok f ↔ ∃ ys, solve x tv = some ys ∧ ys.length = tv.length ∧ f = tv.zip ys := by
  unfold solveFrame
  cases h : solve x tv with
  | none => simp
  | some ys =>
    by_cases hl : ys.length = tv.length
    · simp [hl, eq_comm]
    · simp [hl]

theorem listedSeries_inr {V : Type} (l : List (List (Int × V))) : listedSeries (l.map Sum.inr : List (List (Row Int V) ⊕ List (Int × V))) = l := by
  induction l with
  | nil => rfl
  | cons a l ih => simp [listedSeries, ih]

theorem frames_result {V : Type} {frames : List (List (Int × V))} {d : List (Row Int V)} (h : fromFrameList (frames.map Sum.inr) none = .ok d) :
    Valid d ∧ newIds (d.map (·.id)) = List.range frames.length ∧ ∀ (k : Nat) (f : List (Int × V)), frames[k]? = some f → content d k = f := by
  obtain ⟨-, h2⟩ := C125_frame_list (frames.map Sum.inr : List (List (Row Int V) ⊕ List (Int × V))) none
  obtain ⟨hv, hn, hcont⟩ := h2 d h
  rw [listedSeries_inr] at hn hcont
  simp only [Option.getD_none] at hn
  refine ⟨hv, hn, ?_⟩
  intro k f hk
  have := congrArg (fun l => l[k]?) hcont
  rw [hn] at this
  simp only [List.getElem?_map] at this
  have hlt : k < frames.length := (List.getElem?_eq_some_iff.1 hk).1
  rw [List.getElem?_range hlt, hk] at this
  simpa using this

/-- The states of the initial conditions in the order of their IDs. -/
theorem flatMap_single {c : List (Row Int E)} (hne : c ≠ []) (h1 : ∀ i, HasId c i → (series c i).length = 1) :
    ∃ f : Nat → E, (∀ r ∈ c, r.val = f r.id) ∧ (itertimeseries c).flatMap (fun p => p.2.map (·.2)) = (ids c).map f := by
  obtain ⟨r0, t, rfl⟩ := List.ne_nil_iff_exists_cons.1 hne
  generalize hcc : r0 :: t = c at *
  refine ⟨fun i => ((series c i).head?.map (·.val)).getD r0.val, ?_, ?_⟩
  · intro r hr
    have hr' : r ∈ series c r.id := by simp [series, hr]
    obtain ⟨a, ha⟩ := List.length_eq_one_iff.1 (h1 r.id ⟨r, hr, rfl⟩)
    show r.val = ((series c r.id).head?.map (·.val)).getD r0.val
    rw [ha] at hr' ⊢
    simp at hr'; subst hr'; rfl
  · unfold itertimeseries
    rw [List.flatMap_map]
    have : ∀ l : List Nat, (∀ i ∈ l, i ∈ ids c) → l.flatMap (fun i => (((c.filter (fun r => r.id == i)).map (fun r => (r.time, r.val))).map (·.2))) =
        l.map (fun i => ((series c i).head?.map (·.val)).getD r0.val) := by
      intro l hl
      induction l with
      | nil => rfl
      | cons i l ih =>
        rw [List.flatMap_cons, ih (fun j hj => hl j (by simp [hj])), List.map_cons]
        obtain ⟨a, ha⟩ := List.length_eq_one_iff.1 (h1 i (mem_ids.1 (hl i (by simp))))
        have ha' : c.filter (fun r => r.id == i) = [a] := ha
        rw [ha, ha']; rfl
    exact this _ (fun _ h => h)

theorem mapM_ok_iff {α β ε : Type} (f : α → Except ε β) (l : List α) : (∃ r, l.mapM f = .ok r) ↔ ∀ a ∈ l, ∃ b, f a = .ok b := by
  constructor
  · rintro ⟨r, h⟩ a ha
    obtain ⟨k, hk⟩ := List.getElem?_of_mem ha
    obtain ⟨v, -, h2⟩ := (mapM_ok_get f l r h).2 k a hk
    exact ⟨v, h2⟩
  · intro h
    induction l with
    | nil => exact ⟨[], rfl⟩
    | cons a l ih =>
      obtain ⟨b, hb⟩ := h a (by simp)
      obtain ⟨r, hr⟩ := ih (fun x hx => h x (by simp [hx]))
      exact ⟨b :: r, by rw [List.mapM_cons, hb, hr]; rfl⟩

theorem ivpTimes_array {tv : List Int} (h : 2 ≤ tv.length) : ivpTimes (.array tv) = .ok tv := by
  match tv, h with
  | _ :: _ :: _, _ => rfl

theorem zip_fst {α β : Type} {l : List α} {m : List β} (h : m.length = l.length) : (l.zip m).map (·.1) = l := by
  rw [List.map_fst_zip]; omega

/-- A solver that returns one state for each time value, the first of which is the initial state. -/
def StartsAt (solve : E → List Int → Option (List E)) : Prop := ∀ x t l ys, solve x (t :: l) = some ys → ys.length = (t :: l).length → ys.head? = some x

/-- **C138 (accepted arguments).** A simulation from the initial conditions of a collection is rejected unless the time values are non-negative and strictly increasing, each time series consists of one sample and the
solver succeeds for each of them. -/
theorem C138_accepts (solve : E → List Int → Option (List E)) {X : List (Row Int E)} (hne : X ≠ []) {tv : List Int} (h2 : 2 ≤ tv.length) :
    (∃ d, odePredict solve (.inr X) (.array tv) = .ok d) ↔ (∀ t ∈ tv, 0 ≤ t) ∧ tv.Pairwise (· < ·) ∧ (∀ i, HasId X i → (series X i).length = 1) ∧
      ∀ r ∈ X, ∃ ys, solve r.val tv = some ys ∧ ys.length = tv.length := by
  unfold odePredict
  simp only [ivpTimes_array h2, Except.bind, ivpRows]
  by_cases ht : timesOk tv = true
  · rw [if_neg (by simp [ht])]
    have ht' := (timesOk_iff tv).1 ht
    rw [and_iff_right ht'.1, and_iff_right ht'.2]
    by_cases h1 : (nTimesteps X).values.any (fun n => n != 1) = true
    · rw [if_pos h1]
      have := (not_congr (oneSample_iff hne)).1 (by simp [h1])
      simp [this]
    · rw [if_neg h1]
      have h1' := (oneSample_iff hne).1 (by simpa using h1)
      obtain ⟨f, hf, hflat⟩ := flatMap_single hne h1'
      rw [and_iff_right h1', hflat]
      have hiff : (∃ r, ((ids X).map f).mapM (solveFrame solve tv) = .ok r) ↔ ∀ r ∈ X, ∃ ys, solve r.val tv = some ys ∧ ys.length = tv.length := by
        rw [mapM_ok_iff]
        constructor
        · intro h r hr
          obtain ⟨b, hb⟩ := h (f r.id) (List.mem_map.2 ⟨r.id, mem_ids.2 ⟨r, hr, rfl⟩, rfl⟩)
          obtain ⟨ys, h1, h2, -⟩ := solveFrame_ok.1 hb
          exact ⟨ys, by rw [hf r hr]; exact h1, h2⟩
        · intro h a ha
          obtain ⟨i, hi, rfl⟩ := List.mem_map.1 ha
          obtain ⟨r, hr, rfl⟩ := mem_ids.1 hi
          obtain ⟨ys, h1, h2⟩ := h r hr
          rw [hf r hr] at h1
          exact ⟨_, solveFrame_ok.2 ⟨ys, h1, h2, rfl⟩⟩
      rw [← hiff]
      constructor
      · rintro ⟨d, hd⟩
        cases hm : ((ids X).map f).mapM (solveFrame solve tv) with
        | error e => rw [hm] at hd; simp at hd
        | ok r => exact ⟨r, rfl⟩
      · rintro ⟨frames, hm⟩
        rw [hm]
        have hget := mapM_ok_get _ _ _ hm
        obtain ⟨d, hd⟩ := (C125_frame_list (frames.map Sum.inr : List (List (Row Int E) ⊕ List (Int × E))) none).1.2 (by
          rw [listedSeries_inr]
          refine ⟨?_, by simp, ?_⟩
          · intro e
            have := hget.1
            rw [e] at this
            simp at this
            exact ids_ne_nil hne (List.eq_nil_of_length_eq_zero this.symm)
          · intro g hg
            obtain ⟨k, hk⟩ := List.getElem?_of_mem hg
            have hlt : k < ((ids X).map f).length := by rw [← hget.1]; exact (List.getElem?_eq_some_iff.1 hk).1
            obtain ⟨v, hv1, hv2⟩ := hget.2 k _ (List.getElem?_eq_getElem hlt)
            rw [hk] at hv1
            cases hv1
            obtain ⟨ys, -, hy2, rfl⟩ := solveFrame_ok.1 hv2
            rw [zip_fst hy2]
            refine ⟨?_, ht'.2⟩
            intro e
            have := congrArg List.length e
            simp [hy2] at this
            rw [this] at h2; simp at h2)
        exact ⟨d, ofTsc_ok.2 hd⟩
  · rw [if_pos (by simpa using ht)]
    rw [timesOk_iff] at ht
    constructor
    · rintro ⟨d, hd⟩; simp at hd
    · rintro ⟨h1, h2, -⟩; exact absurd ⟨h1, h2⟩ ht

/-- The result of an accepted simulation: the solution from the initial condition with the `k`-th smallest ID gets the ID `k`. -/
theorem odePredict_result (solve : E → List Int → Option (List E)) {X : List (Row Int E)} (hne : X ≠ []) {tv : List Int} (h2 : 2 ≤ tv.length) {d : List (Row Int E)}
    (h : odePredict solve (.inr X) (.array tv) = .ok d) :
    Valid d ∧ newIds (d.map (·.id)) = List.range (ids X).length ∧
      ∀ r ∈ X, ∀ k : Nat, (ids X)[k]? = some r.id → ∃ ys, solve r.val tv = some ys ∧ ys.length = tv.length ∧ content d k = tv.zip ys := by
  obtain ⟨h3, h4, h1', -⟩ := (C138_accepts solve hne h2).1 ⟨d, h⟩
  unfold odePredict at h
  simp only [ivpTimes_array h2, Except.bind, ivpRows] at h
  rw [if_neg (by simp [(timesOk_iff tv).2 ⟨h3, h4⟩]), if_neg (by rw [Bool.not_eq_true]; exact (oneSample_iff hne).2 h1')] at h
  obtain ⟨f, hf, hflat⟩ := flatMap_single hne h1'
  rw [hflat] at h
  obtain ⟨frames, hm, hd⟩ := exBind_ok.1 h
  obtain ⟨hv, hn, hc⟩ := frames_result (ofTsc_ok.1 hd)
  have hget := mapM_ok_get _ _ _ hm
  refine ⟨hv, by rw [hn, hget.1]; simp, ?_⟩
  intro r hr k hk
  obtain ⟨v, hv1, hv2⟩ := hget.2 k (f r.id) (by simp [hk])
  obtain ⟨ys, hy1, hy2, rfl⟩ := solveFrame_ok.1 hv2
  exact ⟨ys, by rw [hf r hr]; exact hy1, hy2, hc k _ hv1⟩

/-- **C138 (partial: IDs 0, 1, ..., n-1).** If the IDs of the initial conditions are 0, 1, ..., n-1 then the result has the same IDs, and the series with the ID of an initial condition is the solution from its state: it is
sampled at the time values and starts with the initial state at the first time value (the time of the initial condition, if they agree). -/
theorem C138_partial (solve : E → List Int → Option (List E)) (hs : StartsAt solve) {X : List (Row Int E)} (hne : X ≠ []) {n : Nat} (hids : ∀ i, HasId X i ↔ i < n) {tv : List Int} (h2 : 2 ≤ tv.length)
    {d : List (Row Int E)} (h : odePredict solve (.inr X) (.array tv) = .ok d) :
    Valid d ∧ (∀ i, HasId d i ↔ HasId X i) ∧
      ∀ r ∈ X, ∃ ys, solve r.val tv = some ys ∧ content d r.id = tv.zip ys ∧ timesOf d r.id = tv ∧ (r.time = tv.headD 0 → (content d r.id).head? = some (r.time, r.val)) := by
  obtain ⟨hv, hn, hc⟩ := odePredict_result solve hne h2 h
  have hr : ids X = List.range n := eq_of_pairwise_lt (ids_sorted X) List.pairwise_lt_range (fun i => by rw [mem_ids, hids, List.mem_range])
  rw [hr, List.length_range] at hn
  refine ⟨hv, ?_, ?_⟩
  · intro i
    rw [← mem_ids, mem_ids', ← mem_newIds, hn, List.mem_range, hids]
  · intro r hrX
    have hlt := (hids r.id).1 ⟨r, hrX, rfl⟩
    obtain ⟨ys, h3, h4, h5⟩ := hc r hrX r.id (by rw [hr]; simp [hlt])
    have htimes : timesOf d r.id = tv := by
      have : timesOf d r.id = (content d r.id).map (·.1) := by simp [timesOf, content]
      rw [this, h5, zip_fst h4]
    refine ⟨ys, h3, h5, htimes, ?_⟩
    intro ht
    match tv, h2 with
    | t :: s :: l, _ =>
      have hy := hs r.val t (s :: l) ys h3 h4
      match ys, hy with
      | y :: ys, hy =>
        simp at hy ht
        rw [h5, ht, hy]; rfl

/-- **C138 (array of initial states).** The `k`-th row of an array of initial states gives the series with ID `k`. -/
theorem C138_array (solve : E → List Int → Option (List E)) {X : List E} {tv : List Int} (h2 : 2 ≤ tv.length) {d : List (Row Int E)} (h : odePredict solve (.inl X) (.array tv) = .ok d) :
    Valid d ∧ (∀ i, HasId d i ↔ i < X.length) ∧ ∀ (k : Nat) (x : E), X[k]? = some x → ∃ ys, solve x tv = some ys ∧ content d k = tv.zip ys := by
  have hb : ∃ rows, build (X.zipIdx.map (fun p => (⟨p.2, tv.headD 0, p.1⟩ : Row Int E))) = .ok rows := by
    cases hb : build (X.zipIdx.map (fun p => (⟨p.2, tv.headD 0, p.1⟩ : Row Int E))) with
    | ok rows => exact ⟨rows, rfl⟩
    | error e =>
      unfold odePredict at h
      simp only [ivpTimes_array h2, Except.bind, ivpRows, hb, ofTsc] at h
      exact absurd h (by simp)
  obtain ⟨rows, hb⟩ := hb
  have h' : odePredict solve (.inr rows) (.array tv) = .ok d := by
    unfold odePredict at h ⊢
    simpa only [ivpTimes_array h2, Except.bind, ivpRows, hb, ofTsc] using h
  obtain ⟨heq, hne, -⟩ := build_ok_iff.1 hb
  rw [heq] at hne
  have hid : rows.map (·.id) = List.range X.length := by
    rw [← heq, List.map_map]
    show X.zipIdx.map Prod.snd = _
    rw [List.zipIdx_map_snd, List.range_eq_range']
  have hmem : ∀ (k : Nat) (x : E), X[k]? = some x → (⟨k, tv.headD 0, x⟩ : Row Int E) ∈ rows := by
    intro k x hk
    rw [← heq]
    exact List.mem_map.2 ⟨(x, k), List.mem_zipIdx_iff_getElem?.2 (by simpa using hk), rfl⟩
  have hr : ids rows = List.range X.length := eq_of_pairwise_lt (ids_sorted rows) List.pairwise_lt_range (fun i => by rw [mem_ids', hid])
  obtain ⟨hv, hn, hc⟩ := odePredict_result solve hne h2 h'
  rw [hr, List.length_range] at hn
  refine ⟨hv, fun i => by rw [← mem_ids, mem_ids', ← mem_newIds, hn, List.mem_range], ?_⟩
  intro k x hk
  have hlt := (List.getElem?_eq_some_iff.1 hk).1
  obtain ⟨ys, h3, -, h5⟩ := hc _ (hmem k x hk) k (by rw [hr]; simp [hlt])
  exact ⟨ys, h3, h5⟩

/-- The solver of `dx/dt = 0`. -/
def still (x : Nat) (tv : List Int) : Option (List Nat) := some (tv.map fun _ => x)

theorem still_starts : StartsAt still := by
  intro x t l ys h _
  cases h; rfl

example : odePredict still (.inr [⟨1, 0, 7⟩, ⟨0, 0, 5⟩]) (.array [0, 1]) = .ok [⟨0, 0, 5⟩, ⟨0, 1, 5⟩, ⟨1, 0, 7⟩, ⟨1, 1, 7⟩] := by decide +kernel
example : odePredict still (.inl [7, 5]) (.array [0, 1]) = .ok [⟨0, 0, 7⟩, ⟨0, 1, 7⟩, ⟨1, 0, 5⟩, ⟨1, 1, 5⟩] := by decide +kernel

/-- **C138 is false for IDs.** The solution from the initial condition with ID 3 is returned under ID 0. -/
theorem C138_ids_violated : ∃ d, odePredict still (.inr [⟨3, 0, 7⟩]) (.array [0, 1]) = .ok d ∧ content d 3 = [] ∧ content d 0 = [(0, 7), (1, 7)] :=
  ⟨[⟨0, 0, 7⟩, ⟨0, 1, 7⟩], by decide +kernel, by decide +kernel, by decide +kernel⟩

/-- **C138 is false for the start.** The time of an initial condition is ignored: the state at time 5 is returned at time 0. -/
theorem C138_start_violated : ∃ d, odePredict still (.inr [⟨0, 5, 7⟩]) (.array [0, 1]) = .ok d ∧ content d 0 = [(0, 7), (1, 7)] :=
  ⟨[⟨0, 0, 7⟩, ⟨0, 1, 7⟩], by decide +kernel, by decide +kernel⟩

/-- **C138 is false for the default.** Without time values every call fails, although the default is a single step. -/
theorem C138_default_violated (solve : E → List Int → Option (List E)) (X : List E ⊕ List (Row Int E)) : odePredict solve X .none = .error .unbound := rfl

/-! ### Simulations with control -/

/-- Every accepted simulation: number `k` of the initial states gives the series with ID `k`, driven by the control rows that are selected for position `k`. -/
theorem simulate_result {solve : List W → E → List Int → Option (List E)} {dt0 : Int} {zero : W} {X : List E ⊕ List (Row Int E)} {U : SimControl W} {given : Option (List Int)} {S : List (Row Int E)} {u : List (Row Int W)}
    (h : simulate solve dt0 zero X U given = .ok (S, u)) :
    Valid S ∧ (∀ i, HasId S i ↔ i < (simStates X).length) ∧ ∃ tv : List Int, ∀ (k : Nat) (x : E), (simStates X)[k]? = some x →
      ∃ w ys, simRows u tv k = .ok w ∧ solve w x tv = some ys ∧ ys.length = tv.length ∧ content S k = tv.zip ys := by
  obtain ⟨dt, -, h⟩ := exBind_ok.1 h
  obtain ⟨u0, -, h⟩ := exBind_ok.1 h
  obtain ⟨ref, -, h⟩ := exBind_ok.1 h
  obtain ⟨tv, -, h⟩ := exBind_ok.1 h
  obtain ⟨u', -, h⟩ := exBind_ok.1 h
  obtain ⟨frames, hm, h⟩ := exBind_ok.1 h
  obtain ⟨S', hS, h⟩ := exBind_ok.1 h
  cases h
  obtain ⟨hv, hn, hc⟩ := frames_result (ofTsc_ok.1 hS)
  obtain ⟨hl, hget⟩ := mapM_ok_get _ _ _ hm
  refine ⟨hv, fun i => by rw [← mem_ids, mem_ids', ← mem_newIds, hn, List.mem_range, hl, List.length_zipIdx], tv, ?_⟩
  intro k x hk
  obtain ⟨f, hf, h2⟩ := hget k (x, k) (by rw [List.getElem?_zipIdx, hk]; simp)
  obtain ⟨w, hw, h3⟩ := exBind_ok.1 h2
  obtain ⟨ys, hy1, hy2, rfl⟩ := solveFrame_ok.1 h3
  exact ⟨w, ys, hw, hy1, hy2, hc k _ hf⟩

theorem unique_const {l : List Int} {t : Int} (hne : l ≠ []) (h : ∀ a ∈ l, a = t) : unique l = [t] :=
  eq_of_pairwise_lt (unique_pairwise _) (List.pairwise_singleton _ _) (fun a => by
    rw [mem_unique, List.mem_singleton]
    refine ⟨h a, ?_⟩
    rintro rfl
    obtain ⟨b, t, rfl⟩ := List.ne_nil_iff_exists_cons.1 hne
    rw [← h b (by simp)]; simp)

theorem regular_sorted_head {l : List Int} (hs : l.Pairwise (· < ·)) {t : Int} (ht : t ∈ l) : l.headD 0 ≤ t := by
  match l, ht with
  | a :: l, ht =>
    rcases List.mem_cons.1 ht with rfl | h
    · simp
    · exact le_of_lt ((List.pairwise_cons.1 hs).1 t h)

theorem le_getLastD {l : List Int} (hs : l.Pairwise (· < ·)) {t : Int} (ht : t ∈ l) : t ≤ l.getLastD 0 := by
  obtain ⟨l', a, rfl⟩ : ∃ l' a, l = l' ++ [a] := by
    have hne : l ≠ [] := List.ne_nil_of_mem ht
    exact ⟨_, _, (List.dropLast_append_getLast hne).symm⟩
  have : (l' ++ [a]).getLastD 0 = a := by simp
  rw [this]
  rcases List.mem_append.1 ht with h | h
  · exact le_of_lt ((List.pairwise_append.1 hs).2.2 t h a (by simp))
  · simp at h; omega

theorem build_frames {V : Type} {frames : List (List (Int × V))} {tv : List Int} (hne : frames ≠ []) (htv : tv ≠ []) (hs : tv.Pairwise (· < ·)) (h : ∀ f ∈ frames, f.map (·.1) = tv) :
    ∃ d, fromFrameList (frames.map Sum.inr) none = .ok d := by
  refine (C125_frame_list (frames.map Sum.inr : List (List (Row Int V) ⊕ List (Int × V))) none).1.2 ?_
  rw [listedSeries_inr]
  refine ⟨hne, by simp, ?_⟩
  intro f hf
  have hf' := h f hf
  refine ⟨?_, by rw [hf']; exact hs⟩
  rintro rfl
  exact htv hf'.symm

/-- **C139 (partial: IDs 0, 1, ..., n-1 in this order).** Let the initial conditions have the IDs 0, 1, ..., n-1 in this order, with one sample each at the first time of the control, and let the control have a series, sampled at the
same regular time values, for each of them.  Then the series with the ID of an initial condition is the solution with the control that has the same ID, and without the last sample of each series the index of the states is the
index of the control that is returned with them. -/
theorem C139_partial (solve : List W → E → List Int → Option (List E)) (dt0 : Int) (zero : W) {X : List (Row Int E)} {U : List (Row Int W)} {n : Nat} {times : List Int} {d : Int}
    (hX : Valid X) (hXne : X ≠ []) (hids : X.map (·.id) = List.range n) (hU : Valid U) (hUne : U ≠ []) (hUids : ∀ i, HasId U i ↔ i < n)
    (hreg : Regular times d) (htimes : ∀ i, i < n → timesOf U i = times) (hstart : ∀ r ∈ X, r.time = times.headD 0)
    (hsol : ∀ r ∈ X, ∃ ys, solve ((content U r.id).map (·.2)) r.val (times ++ [times.getLastD 0 + d]) = some ys ∧ ys.length = times.length + 1) :
    ∃ S, simulate solve dt0 zero (.inr X) (.tsc U) none = .ok (S, U) ∧ Valid S ∧ (∀ i, HasId S i ↔ HasId X i) ∧
      ∀ r ∈ X, ∃ ys, solve ((content U r.id).map (·.2)) r.val (times ++ [times.getLastD 0 + d]) = some ys ∧ content S r.id = (times ++ [times.getLastD 0 + d]).zip ys ∧
        (timesOf S r.id).dropLast = timesOf U r.id := by
  have hXlen : X.length = n := by have := congrArg List.length hids; simpa using this
  have hget : ∀ (k : Nat) (r : Row Int E), X[k]? = some r → r.id = k := by
    intro k r hk
    have := congrArg (fun l => l[k]?) hids
    have hlt := (List.getElem?_eq_some_iff.1 hk).1
    simp only [List.getElem?_map, hk, Option.map_some] at this
    rw [List.getElem?_range (by omega)] at this
    simpa using this
  have hXid : ∀ i, HasId X i ↔ i < n := fun i => by rw [← mem_ids, mem_ids', hids, List.mem_range]
  have hn0 : 0 < n := by rw [← hXlen]; exact List.length_pos_iff.2 hXne
  have hpos : 0 < d := regular_pos hU (i := 0) (by rw [htimes 0 hn0]; exact hreg)
  have hct : ∀ i, (content U i).map (·.1) = timesOf U i := fun i => by simp [content, timesOf]
  have hsame : isSameTimeValues U = true := (C10_same_time_values hUne hU).2 (fun i j hi hj => by
    rw [hct, hct, htimes i ((hUids i).1 hi), htimes j ((hUids j).1 hj)])
  have htv : timeValues U = times := by
    rw [← (sameTimes_blocks hUne hU hsame).1 0 ((hUids 0).2 hn0), hct, htimes 0 hn0]
  have hsorted : times.Pairwise (· < ·) := by rw [← htv]; exact unique_pairwise _
  have hne : times ≠ [] := by rintro rfl; simp [Regular] at hreg
  have hserlen : ∀ i, i < n → (series U i).length = times.length := fun i hi => by rw [← htimes i hi]; simp [timesOf]
  have hUlen : 1 < U.length := by
    have h1 := hserlen 0 hn0
    have h2 : (series U 0).length ≤ U.length := List.length_filter_le _ _
    have h3 := hreg.1
    omega
  have hdelta : deltaTime .int U = .one (some d) := C11_regular hUne hU .int (fun i hi => by rw [htimes i ((hUids i).1 hi)]; exact hreg)
  have h1 : simDelta dt0 (.tsc U) none = .ok d := by simp [simDelta, hUlen, hdelta]
  have href : simReference (W := W) (.inr X) (.inr U) = .ok (times.headD 0) := by
    obtain ⟨f, hf, hfv, hfid, hfs⟩ := (C06_final hXne hX 1).1 ⟨le_refl _, fun i hi => by
      have := List.length_pos_iff.2 (hasId_iff_series.1 hi); omega⟩
    have hsub : ∀ r ∈ f, r ∈ X := by
      intro r hr
      have : r ∈ series f r.id := by simp [series, hr]
      rw [hfs] at this
      exact (mem_series.1 (List.mem_of_mem_drop this)).1
    have hfne : f ≠ [] := by
      rintro rfl
      have := (hfid 0).2 ((hXid 0).2 hn0)
      obtain ⟨r, hr, -⟩ := this
      simp at hr
    have hu : timeValues f = [times.headD 0] := unique_const (by simpa using hfne) (by
      intro a ha
      obtain ⟨r, hr, rfl⟩ := List.mem_map.1 ha
      exact hstart r (hsub r hr))
    simp only [simReference, hf, hu]
  have hlast : ∀ t ∈ times ++ [times.getLastD 0 + d], times.headD 0 ≤ t := by
    intro t ht
    rcases List.mem_append.1 ht with h | h
    · exact regular_sorted_head hsorted h
    · simp only [List.mem_singleton] at h
      have : times.getLastD 0 ∈ times := by
        obtain ⟨l', a, rfl⟩ : ∃ l' a, times = l' ++ [a] := ⟨_, _, (List.dropLast_append_getLast hne).symm⟩
        simp
      have := regular_sorted_head hsorted this
      omega
  have htimesOk : simTimes (W := W) true (times.headD 0) d (.inr U) none = .ok (times ++ [times.getLastD 0 + d]) := by
    have hfil : (times ++ [times.getLastD 0 + d]).filter (fun t => decide (times.headD 0 ≤ t)) = times ++ [times.getLastD 0 + d] :=
      List.filter_eq_self.2 (fun t ht => by simpa only [decide_eq_true_eq] using hlast t ht)
    simp only [simTimes, htv, hfil]
    rw [if_neg (by simp)]
  generalize htvd : times ++ [times.getLastD 0 + d] = tv at *
  have htvlen : tv.length = times.length + 1 := by rw [← htvd]; simp
  have htvs : tv.Pairwise (· < ·) := by
    rw [← htvd, List.pairwise_append]
    refine ⟨hsorted, List.pairwise_singleton _ _, ?_⟩
    intro a ha b hb
    simp only [List.mem_singleton] at hb
    have := le_getLastD hsorted ha
    omega
  have hidx : simIndex (.inr U) tv = .ok U := by
    have hone := (nTimesteps_one hUne times.length).2 (fun i hi => hserlen i ((hUids i).1 (mem_ids.1 hi)))
    simp [simIndex, hsame, hone, PerId.values, htvlen]
  have hrows : ∀ k, k < n → simRows U tv k = .ok ((content U k).map (·.2)) := by
    intro k hk
    have hr : ids U = List.range n := eq_of_pairwise_lt (ids_sorted U) List.pairwise_lt_range (fun i => by rw [mem_ids, hUids, List.mem_range])
    unfold simRows
    have h3 := hreg.1
    rw [if_neg (by omega), hr, List.getElem?_range hk]
  have hmap : ∃ frames, (simStates (.inr X)).zipIdx.mapM (fun p => (simRows U tv p.2).bind fun w => solveFrame (solve w) tv p.1) = .ok frames := by
    rw [mapM_ok_iff]
    intro a ha
    have ha' := List.mem_zipIdx_iff_getElem?.1 ha
    simp only [simStates, List.getElem?_map, Option.map_eq_some_iff] at ha'
    obtain ⟨r, hr, hrv⟩ := ha'
    have hrX : r ∈ X := List.mem_of_getElem? hr
    have hid := hget _ _ hr
    obtain ⟨ys, hy1, hy2⟩ := hsol r hrX
    refine ⟨tv.zip ys, ?_⟩
    have hlt : a.2 < n := by rw [← hid]; exact (hXid _).1 ⟨r, hrX, rfl⟩
    rw [hrows a.2 hlt]
    show solveFrame _ tv a.1 = _
    rw [solveFrame_ok]
    exact ⟨ys, by rw [← hid, ← hrv]; exact hy1, by omega, rfl⟩
  obtain ⟨frames, hframes⟩ := hmap
  have hfr : ∀ f ∈ frames, f.map (·.1) = tv := by
    intro f hf
    obtain ⟨hl, hg⟩ := mapM_ok_get _ _ _ hframes
    obtain ⟨k, hk⟩ := List.getElem?_of_mem hf
    have hlt : k < (simStates (.inr X : List E ⊕ List (Row Int E))).zipIdx.length := by rw [← hl]; exact (List.getElem?_eq_some_iff.1 hk).1
    obtain ⟨v, hv1, hv2⟩ := hg k _ (List.getElem?_eq_getElem hlt)
    rw [hk] at hv1
    cases hv1
    obtain ⟨w, -, h3⟩ := exBind_ok.1 hv2
    obtain ⟨ys, -, hy2, rfl⟩ := solveFrame_ok.1 h3
    exact zip_fst hy2
  have hfne : frames ≠ [] := by
    rintro rfl
    have := (mapM_ok_get _ _ _ hframes).1
    simp [simStates] at this
    exact hXne (List.eq_nil_of_length_eq_zero this.symm)
  obtain ⟨S, hS⟩ := build_frames hfne (by rintro rfl; simp at htvlen) htvs hfr
  have hsim : simulate solve dt0 zero (.inr X) (.tsc U) none = .ok (S, U) := by
    unfold simulate
    refine exBind_ok.2 ⟨d, h1, exBind_ok.2 ⟨.inr U, rfl, exBind_ok.2 ⟨_, href, exBind_ok.2 ⟨tv, htimesOk, exBind_ok.2 ⟨U, hidx, exBind_ok.2 ⟨frames, hframes, exBind_ok.2 ⟨S, ofTsc_ok.2 hS, rfl⟩⟩⟩⟩⟩⟩⟩
  obtain ⟨hv, hn, hc⟩ := frames_result hS
  obtain ⟨hl, hg⟩ := mapM_ok_get _ _ _ hframes
  have hflen : frames.length = n := by rw [hl]; simp [simStates, hXlen]
  refine ⟨S, hsim, hv, fun i => by rw [hXid, ← mem_ids, mem_ids', ← mem_newIds, hn, List.mem_range, hflen], ?_⟩
  intro r hr
  obtain ⟨k, hk⟩ := List.getElem?_of_mem hr
  have hid := hget k r hk
  have hlt : k < n := by rw [← hid]; exact (hXid _).1 ⟨r, hr, rfl⟩
  obtain ⟨f, hf, h2⟩ := hg k (r.val, k) (by simp [simStates, List.getElem?_zipIdx, hk])
  obtain ⟨w, hw, h3⟩ := exBind_ok.1 h2
  rw [hrows k hlt] at hw
  cases hw
  obtain ⟨ys, hy1, hy2, rfl⟩ := solveFrame_ok.1 h3
  have hcont := hc k _ hf
  refine ⟨ys, by rw [hid]; exact hy1, by rw [hid]; exact hcont, ?_⟩
  have : timesOf S k = tv := by
    have : timesOf S k = (content S k).map (·.1) := by simp [timesOf, content]
    rw [this, hcont, zip_fst hy2]
  rw [hid, this, htimes k hlt, ← htvd]
  simp

/-- A solver that adds the first control value to the state with every step. -/
def addSteps (w : List Nat) (x : Nat) (tv : List Int) : Option (List Nat) := some ((List.range tv.length).map fun k => x + k * w.headD 0)

example : simulate addSteps 1 0 (.inr [⟨0, 0, 5⟩, ⟨1, 0, 7⟩]) (.tsc [⟨0, 0, 10⟩, ⟨0, 1, 10⟩, ⟨1, 0, 20⟩, ⟨1, 1, 20⟩]) none =
    .ok ([⟨0, 0, 5⟩, ⟨0, 1, 15⟩, ⟨0, 2, 25⟩, ⟨1, 0, 7⟩, ⟨1, 1, 27⟩, ⟨1, 2, 47⟩], [⟨0, 0, 10⟩, ⟨0, 1, 10⟩, ⟨1, 0, 20⟩, ⟨1, 1, 20⟩]) := by decide +kernel

/-- **C139 is false for other IDs.** States and control with ID 1 come back with ID 0 for the states. -/
theorem C139_ids_violated : simulate addSteps 1 0 (.inr [⟨1, 0, 5⟩]) (.tsc [⟨1, 0, 10⟩, ⟨1, 1, 10⟩]) none =
    .ok ([⟨0, 0, 5⟩, ⟨0, 1, 15⟩, ⟨0, 2, 25⟩], [⟨1, 0, 10⟩, ⟨1, 1, 10⟩]) := by decide +kernel

/-- **C139 is false for other orders.** If the initial condition with ID 1 comes first then it is driven by the control with ID 0. -/
theorem C139_order_violated : simulate addSteps 1 0 (.inr [⟨1, 0, 7⟩, ⟨0, 0, 5⟩]) (.tsc [⟨0, 0, 10⟩, ⟨0, 1, 10⟩, ⟨1, 0, 20⟩, ⟨1, 1, 20⟩]) none =
    .ok ([⟨0, 0, 7⟩, ⟨0, 1, 17⟩, ⟨0, 2, 27⟩, ⟨1, 0, 5⟩, ⟨1, 1, 25⟩, ⟨1, 2, 45⟩], [⟨0, 0, 10⟩, ⟨0, 1, 10⟩, ⟨1, 0, 20⟩, ⟨1, 1, 20⟩]) := by decide +kernel

/-- **C139 is false for earlier initial conditions.** An initial condition at time 0 is moved to the first time 5 of the control. -/
theorem C139_start_violated : simulate addSteps 1 0 (.inr [⟨0, 0, 5⟩]) (.tsc [⟨0, 5, 10⟩, ⟨0, 6, 10⟩]) none =
    .ok ([⟨0, 5, 5⟩, ⟨0, 6, 15⟩, ⟨0, 7, 25⟩], [⟨0, 5, 10⟩, ⟨0, 6, 10⟩]) := by decide +kernel

/-- **C139 is false for single steps.** Several initial conditions with one control state each, as collection, are always rejected, also with time values. -/
theorem C139_one_step_violated (solve : List W → E → List Int → Option (List E)) (dt0 : Int) (zero : W) (X : List E ⊕ List (Row Int E)) {U : List (Row Int W)} (hU : Valid U) (h2 : 1 < U.length)
    (h1 : ∀ i, HasId U i → (series U i).length = 1) (given : Option (List Int)) : simulate solve dt0 zero X (.tsc U) given = .error .notConstDelta := by
  have hne : U ≠ [] := by rintro rfl; simp at h2
  have hd : deltaTime .int U = .one none := C11_all_irregular hne hU .int (fun i d hi hr => by
    have := hr.1
    simp [timesOf, h1 i hi] at this)
  simp [simulate, simDelta, h2, hd, Except.bind]

example : Valid ([⟨0, 0, 10⟩, ⟨1, 0, 20⟩] : List (Row Int Nat)) := (valid_iff _).2 (by unfold Before; decide)

/-- The zero control of an uncontrolled simulation (`t0 :: l` are the time values without the last one). -/
theorem zero_control (n : Nat) (hn : 0 < n) (zero : W) (t0 t1 : Int) (l : List Int) (hs : (t0 :: l ++ [t1]).Pairwise (· < ·)) :
    ∃ u : List (Row Int W), simControl n zero .none (some (t0 :: l ++ [t1])) = .ok (.inr u) ∧ u ≠ [] ∧ Valid u ∧ (∀ i, HasId u i ↔ i < n) ∧ (∀ i, i < n → content u i = (t0 :: l).map (fun t => (t, zero))) ∧
      timeValues u = t0 :: l ∧ isSameTimeValues u = true ∧ (u.map (·.id)).Pairwise (· ≤ ·) := by
  have hs' : (t0 :: l).Pairwise (· < ·) := (List.pairwise_append.1 hs).1
  obtain ⟨u, hu, hv, hasc, hid, hcont⟩ := C02_from_tensor (l.length + 1) (List.replicate n (List.replicate (l.length + 1) zero)) none (t0 :: l) (by omega)
    (by simp; omega) (by intro s hs; rw [List.eq_of_mem_replicate hs]; simp) (by simp) (hs'.imp (fun h => ne_of_lt h)) (by simp)
  simp only [Option.getD_none, List.length_replicate, List.mem_range] at hid hcont
  have hne : u ≠ [] := by
    rintro rfl
    obtain ⟨r, hr, -⟩ := (hid 0).2 hn
    simp at hr
  have hc : ∀ i, i < n → content u i = (t0 :: l).map (fun t => (t, zero)) := by
    intro i hi
    have := (hcont i hi (by simpa using hi)).2.2 hs'
    simp only [List.getElem_range, List.getElem_replicate] at this
    rw [this]
    apply List.ext_getElem
    · simp
    · intro k h1 h2
      rw [List.getElem_zip, List.getElem_replicate, List.getElem_map]
  have hsame : isSameTimeValues u = true := (C10_same_time_values hne hv).2 (fun i j hi hj => by
    rw [hc i ((hid i).1 hi), hc j ((hid j).1 hj)])
  refine ⟨u, ?_, hne, hv, hid, hc, ?_, hsame, hasc⟩
  · have e1 : (t0 :: l ++ [t1]).dropLast = t0 :: l := by rw [List.dropLast_append_of_ne_nil (by simp)]; simp
    have e2 : (t0 :: l ++ [t1]).length - 1 = l.length + 1 := by simp
    simp only [simControl, e1, e2, hu]
    rfl
  · rw [← (sameTimes_blocks hne hv hsame).1 0 ((hid 0).2 hn), hc 0 hn]
    simp [Function.comp_def]

/-- **C139 (no control).** Without control, the states of an array are simulated with the vanishing control at all given time values, provided that the last step is as large as the first; other time values are rejected. -/
theorem C139_uncontrolled (solve : List W → E → List Int → Option (List E)) (dt0 : Int) (zero : W) {X : List E} (hX : X ≠ []) {tv : List Int} (h2 : 2 ≤ tv.length) (h0 : ∀ t ∈ tv, 0 ≤ t) (hs : tv.Pairwise (· < ·))
    (hsol : ∀ x ∈ X, ∃ ys, solve (List.replicate (tv.length - 1) zero) x tv = some ys ∧ ys.length = tv.length) :
    (tv.getLastD 0 - tv.dropLast.getLastD 0 = tv.getD 1 0 - tv.getD 0 0 →
      ∃ S u, simulate solve dt0 zero (.inl X) .none (some tv) = .ok (S, u) ∧ Valid S ∧ (∀ i, HasId S i ↔ i < X.length) ∧
        (∀ (k : Nat) (x : E), X[k]? = some x → ∃ ys, solve (List.replicate (tv.length - 1) zero) x tv = some ys ∧ content S k = tv.zip ys) ∧
        ∀ i, i < X.length → (timesOf S i).dropLast = timesOf u i) ∧
    (tv.getLastD 0 - tv.dropLast.getLastD 0 ≠ tv.getD 1 0 - tv.getD 0 0 → simulate solve dt0 zero (.inl X) .none (some tv) = .error .mismatch) := by
  obtain ⟨t0, l, t1, rfl⟩ : ∃ t0 l t1, tv = t0 :: l ++ [t1] := by
    match tv, h2 with
    | a :: b :: m, _ => exact ⟨a, (b :: m).dropLast, (b :: m).getLast (by simp), by rw [List.cons_append, List.dropLast_append_getLast]⟩
  have hn : 0 < X.length := List.length_pos_iff.2 hX
  obtain ⟨u, hu, hune, huv, huid, huc, hutv, husame, huasc⟩ := zero_control X.length hn zero t0 t1 l hs
  have hdl : (t0 :: l ++ [t1]).dropLast = t0 :: l := by rw [List.dropLast_append_of_ne_nil (by simp)]; simp
  have hlast : (t0 :: l ++ [t1]).getLastD 0 = t1 := (by intro m; simp : ∀ m : List Int, (m ++ [t1]).getLastD 0 = t1) _
  rw [hdl, hlast]
  generalize hd : (t0 :: l ++ [t1]).getD 1 0 - (t0 :: l ++ [t1]).getD 0 0 = dt
  have h1 : simDelta (W := W) dt0 .none (some (t0 :: l ++ [t1])) = .ok dt := by
    rw [← hd]
    cases l <;> simp [simDelta]
  have href : simReference (.inl X) (.inr u) = .ok t0 := by simp [simReference, hutv]
  have hok : timesOk (t0 :: l ++ [t1]) = true := (timesOk_iff _).2 ⟨h0, hs⟩
  have hfil : (t0 :: l).filter (fun t => decide (t0 ≤ t)) = t0 :: l := List.filter_eq_self.2 (fun t ht => by
    have := regular_sorted_head (List.pairwise_append.1 hs).1 ht
    simpa using this)
  have hagree : (decide (t0 :: l ++ [t1] = t0 :: l ++ [(t0 :: l).getLastD 0 + dt]) = true) ↔ t1 - (t0 :: l).getLastD 0 = dt := by
    rw [decide_eq_true_eq, List.append_cancel_left_eq]
    simp only [List.cons.injEq, and_true]
    omega
  have htimes : simTimes (W := W) false t0 dt (.inr u) (some (t0 :: l ++ [t1])) = if t1 - (t0 :: l).getLastD 0 = dt then .ok (t0 :: l ++ [t1]) else .error .mismatch := by
    unfold simTimes
    simp only [timesAgree, hok, hutv, hfil]
    rw [if_neg (by simp)]
    by_cases h : t1 - (t0 :: l).getLastD 0 = dt
    · rw [if_pos h, hagree.2 h]; simp
    · rw [if_neg h]
      have : decide (t0 :: l ++ [t1] = t0 :: l ++ [(t0 :: l).getLastD 0 + dt]) = false := by
        rw [← Bool.not_eq_true, hagree]; exact h
      rw [this]; simp
  constructor
  · intro hstep
    rw [if_pos hstep] at htimes
    generalize htv : t0 :: l ++ [t1] = tv at *
    have htvl : tv.length = l.length + 2 := by rw [← htv]; simp
    have hone : ∀ i, i < X.length → (series u i).length = l.length + 1 := by
      intro i hi
      have := congrArg List.length (huc i hi)
      simpa [content] using this
    have hidx : simIndex (.inr u) tv = .ok u := by
      have h1 := (nTimesteps_one hune (l.length + 1)).2 (fun i hi => hone i ((huid i).1 (mem_ids.1 hi)))
      simp [simIndex, husame, h1, PerId.values, htvl]
    have hzero : ∀ r ∈ u, r.val = zero := by
      intro r hr
      have h3 := huc r.id ((huid _).1 ⟨r, hr, rfl⟩)
      have h4 : (r.time, r.val) ∈ content u r.id := List.mem_map.2 ⟨r, by simp [series, hr], rfl⟩
      rw [h3] at h4
      obtain ⟨t, -, h5⟩ := List.mem_map.1 h4
      cases h5; rfl
    have hulen : X.length ≤ u.length := by
      have h3 : (ids u).length ≤ u.length := by
        have := newIds_length_le (u.map (·.id))
        rw [newIds_eq_ids huasc] at this
        simpa using this
      have h4 : ids u = List.range X.length := eq_of_pairwise_lt (ids_sorted u) List.pairwise_lt_range (fun i => by rw [mem_ids, huid, List.mem_range])
      rw [h4] at h3
      simpa using h3
    have hrows : ∀ k, k < X.length → simRows u tv k = .ok (List.replicate (tv.length - 1) zero) := by
      intro k hk
      unfold simRows
      by_cases h3 : tv.length = 2
      · rw [if_pos h3, List.getElem?_eq_getElem (by omega), h3]
        simp [hzero _ (List.getElem_mem _)]
      · rw [if_neg h3]
        have h4 : ids u = List.range X.length := eq_of_pairwise_lt (ids_sorted u) List.pairwise_lt_range (fun i => by rw [mem_ids, huid, List.mem_range])
        rw [h4, List.getElem?_range hk]
        simp only [huc k hk, htvl, List.map_map]
        congr 1
        rw [List.eq_replicate_iff]
        constructor
        · simp
        · intro b hb
          obtain ⟨_, _, rfl⟩ := List.mem_map.1 hb
          rfl
    have hmap : ∃ frames, (simStates (.inl X)).zipIdx.mapM (fun p => (simRows u tv p.2).bind fun w => solveFrame (solve w) tv p.1) = .ok frames := by
      rw [mapM_ok_iff]
      intro a ha
      have ha' : X[a.2]? = some a.1 := List.mem_zipIdx_iff_getElem?.1 ha
      obtain ⟨ys, hy1, hy2⟩ := hsol a.1 (List.mem_of_getElem? ha')
      rw [hrows a.2 (List.getElem?_eq_some_iff.1 ha').1]
      exact ⟨tv.zip ys, solveFrame_ok.2 ⟨ys, hy1, hy2, rfl⟩⟩
    obtain ⟨frames, hframes⟩ := hmap
    obtain ⟨hl, hg⟩ := mapM_ok_get _ _ _ hframes
    have hfr : ∀ f ∈ frames, f.map (·.1) = tv := by
      intro f hf
      obtain ⟨k, hk⟩ := List.getElem?_of_mem hf
      have hlt : k < (simStates (.inl X : List E ⊕ List (Row Int E))).zipIdx.length := by rw [← hl]; exact (List.getElem?_eq_some_iff.1 hk).1
      obtain ⟨v, hv1, hv2⟩ := hg k _ (List.getElem?_eq_getElem hlt)
      rw [hk] at hv1
      cases hv1
      obtain ⟨w, -, h3⟩ := exBind_ok.1 hv2
      obtain ⟨ys, -, hy2, rfl⟩ := solveFrame_ok.1 h3
      exact zip_fst hy2
    have hfne : frames ≠ [] := by
      rintro rfl
      simp [simStates] at hl
      omega
    obtain ⟨S, hS⟩ := build_frames hfne (by rintro rfl; simp at htvl) hs hfr
    have hsim : simulate solve dt0 zero (.inl X) .none (some tv) = .ok (S, u) := by
      unfold simulate
      exact exBind_ok.2 ⟨dt, h1, exBind_ok.2 ⟨.inr u, hu, exBind_ok.2 ⟨_, href, exBind_ok.2 ⟨tv, htimes, exBind_ok.2 ⟨u, hidx, exBind_ok.2 ⟨frames, hframes, exBind_ok.2 ⟨S, ofTsc_ok.2 hS, rfl⟩⟩⟩⟩⟩⟩⟩
    obtain ⟨hv, hn', hc⟩ := frames_result hS
    have hflen : frames.length = X.length := by rw [hl]; simp [simStates]
    have hcont : ∀ (k : Nat) (x : E), X[k]? = some x → ∃ ys, solve (List.replicate (tv.length - 1) zero) x tv = some ys ∧ ys.length = tv.length ∧ content S k = tv.zip ys := by
      intro k x hk
      obtain ⟨f, hf, h2⟩ := hg k (x, k) (by simp [simStates, List.getElem?_zipIdx, hk])
      obtain ⟨w, hw, h3⟩ := exBind_ok.1 h2
      rw [hrows k (List.getElem?_eq_some_iff.1 hk).1] at hw
      cases hw
      obtain ⟨ys, hy1, hy2, rfl⟩ := solveFrame_ok.1 h3
      exact ⟨ys, hy1, hy2, hc k _ hf⟩
    refine ⟨S, u, hsim, hv, fun i => by rw [← mem_ids, mem_ids', ← mem_newIds, hn', List.mem_range, hflen], ?_, ?_⟩
    · intro k x hk
      obtain ⟨ys, a, -, b⟩ := hcont k x hk
      exact ⟨ys, a, b⟩
    · intro i hi
      obtain ⟨ys, -, a, b⟩ := hcont i _ (List.getElem?_eq_getElem hi)
      have e1 : timesOf S i = tv := by
        have : timesOf S i = (content S i).map (·.1) := by simp [timesOf, content]
        rw [this, b, zip_fst a]
      have e2 : timesOf u i = t0 :: l := by
        have : timesOf u i = (content u i).map (·.1) := by simp [timesOf, content]
        rw [this, huc i hi]; simp [Function.comp_def]
      rw [e1, e2]; exact hdl
  · intro hstep
    rw [if_neg hstep] at htimes
    unfold simulate
    rw [h1]
    simp only [Except.bind, simStates, hu, href, Sum.isRight_inl, htimes]

example : (∀ t ∈ ([0, 1, 5] : List Int), 0 ≤ t) ∧ ([0, 1, 5] : List Int).Pairwise (· < ·) ∧ ([0, 1, 5] : List Int).getLastD 0 - ([0, 1, 5] : List Int).dropLast.getLastD 0 = 4 ∧
    ∀ x ∈ [5, 7], ∃ ys, addSteps (List.replicate 2 0) x [0, 1, 5] = some ys ∧ ys.length = 3 := by
  refine ⟨by decide, by decide, by decide, ?_⟩
  intro x _
  exact ⟨_, rfl, by simp⟩

/-- **C139 (time reference).** Initial conditions whose series end at different times are rejected. -/
theorem C139_reference (solve : List W → E → List Int → Option (List E)) (dt0 : Int) (zero : W) {X : List (Row Int E)} (hX : Valid X) {a b : Row Int E} (ha : series X a.id = [a]) (hb : series X b.id = [b])
    (hab : a.time ≠ b.time) (U : SimControl W) (given : Option (List Int)) : ∃ e, simulate solve dt0 zero (.inr X) U given = .error e := by
  have haX : a ∈ X := (mem_series.1 (ha ▸ List.mem_singleton.2 rfl : a ∈ series X a.id)).1
  have hbX : b ∈ X := (mem_series.1 (hb ▸ List.mem_singleton.2 rfl : b ∈ series X b.id)).1
  have hXne : X ≠ [] := List.ne_nil_of_mem haX
  have href : ∀ u : List W ⊕ List (Row Int W), simReference (.inr X) u = .error .reference := by
    intro u
    obtain ⟨f, hf, -, -, hfs⟩ := (C06_final hXne hX 1).1 ⟨le_refl _, fun i hi => by
      have := List.length_pos_iff.2 (hasId_iff_series.1 hi); omega⟩
    have hin : ∀ r : Row Int E, series X r.id = [r] → r.time ∈ timeValues f := by
      intro r hr
      have h1 : series f r.id = [r] := by rw [hfs, hr]; simp
      have : r ∈ f := (mem_series.1 (h1 ▸ List.mem_singleton.2 rfl : r ∈ series f r.id)).1
      rw [timeValues, mem_unique]
      exact List.mem_map.2 ⟨r, this, rfl⟩
    have h1 := hin a ha
    have h2 := hin b hb
    simp only [simReference, hf]
    split
    · rename_i r hr
      rw [hr] at h1 h2
      simp only [List.mem_singleton] at h1 h2
      exact absurd (h1.trans h2.symm) hab
    · rfl
  unfold simulate
  cases simDelta dt0 U given with
  | error e => exact ⟨e, rfl⟩
  | ok dt =>
    simp only [Except.bind]
    cases simControl (simStates (.inr X)).length zero U given with
    | error e => exact ⟨e, rfl⟩
    | ok u => simp only [href u]; exact ⟨_, rfl⟩

example : Valid ([⟨0, 0, 5⟩, ⟨1, 2, 7⟩] : List (Row Int Nat)) ∧ series ([⟨0, 0, 5⟩, ⟨1, 2, 7⟩] : List (Row Int Nat)) 0 = [⟨0, 0, 5⟩] ∧ series ([⟨0, 0, 5⟩, ⟨1, 2, 7⟩] : List (Row Int Nat)) 1 = [⟨1, 2, 7⟩] :=
  ⟨(valid_iff _).2 (by unfold Before; decide), by decide, by decide⟩

/-- **C139 (array control).** An array of control states for several initial conditions is accepted only with one state for each of them. -/
theorem C139_array_shape (solve : List W → E → List Int → Option (List E)) (dt0 : Int) (zero : W) (X : List E ⊕ List (Row Int E)) (rows : List W) (given : Option (List Int)) (hn : 1 < (simStates X).length)
    (hne : rows.length ≠ (simStates X).length) : ∃ e, simulate solve dt0 zero X (.array rows) given = .error e := by
  unfold simulate
  cases simDelta dt0 (.array rows) given with
  | error e => exact ⟨e, rfl⟩
  | ok dt => exact ⟨.control, by simp [Except.bind, simControl, hne, hn]⟩

/-- **C139 (single steps).** An array with one control state for each of several initial states is a single step of each initial state with its control state. -/
theorem C139_array_steps (solve : List W → E → List Int → Option (List E)) (dt0 : Int) (zero : W) {X : List E} {rows : List W} (hn : rows.length = X.length) {t0 t1 : Int} {S : List (Row Int E)} {u : List (Row Int W)}
    (h : simulate solve dt0 zero (.inl X) (.array rows) (some [t0, t1]) = .ok (S, u)) :
    Valid S ∧ (∀ i, HasId S i ↔ i < X.length) ∧ (∀ (k : Nat) (x : E) (w : W), X[k]? = some x → rows[k]? = some w → ∃ ys, solve [w] x [t0, t1] = some ys ∧ content S k = [t0, t1].zip ys) ∧
      ∀ (k : Nat) (w : W), rows[k]? = some w → u[k]? = some ⟨k, t0, w⟩ := by
  obtain ⟨hv, hid, -⟩ := simulate_result h
  obtain ⟨dt, -, h⟩ := exBind_ok.1 h
  obtain ⟨u0, hu0, h⟩ := exBind_ok.1 h
  obtain ⟨ref, -, h⟩ := exBind_ok.1 h
  obtain ⟨tv, htv, h⟩ := exBind_ok.1 h
  obtain ⟨u', hu', h⟩ := exBind_ok.1 h
  obtain ⟨frames, hm, h⟩ := exBind_ok.1 h
  obtain ⟨S', hS, h⟩ := exBind_ok.1 h
  cases h
  obtain ⟨-, -, hc⟩ := frames_result (ofTsc_ok.1 hS)
  obtain ⟨-, hget⟩ := mapM_ok_get _ _ _ hm
  have htv' : tv = [t0, t1] := by
    unfold simTimes at htv
    simp only [Sum.isRight_inl] at htv
    split at htv
    · cases htv
    · split at htv
      · cases htv
      · rw [if_pos trivial] at htv; cases htv; rfl
  subst htv'
  have hu : u = rows.zipIdx.map (fun p => (⟨p.2, t0, p.1⟩ : Row Int W)) := by
    simp only [simControl, simStates, hn, if_true] at hu0
    cases hb : build (rows.zipIdx.map (fun p => (⟨p.2, List.headD [t0, t1] 0, p.1⟩ : Row Int W))) with
    | error e => rw [hb] at hu0; cases hu0
    | ok c =>
      rw [hb] at hu0
      cases hu0
      simp only [simIndex] at hu'
      split at hu'
      · cases hu'
      · split at hu'
        · cases hu'
        · cases hu'
          exact (build_ok_iff.1 hb).1.symm
  have hrow : ∀ (k : Nat) (w : W), rows[k]? = some w → u[k]? = some ⟨k, t0, w⟩ := by
    intro k w hk
    rw [hu, List.getElem?_map, List.getElem?_zipIdx, hk]; simp
  refine ⟨hv, hid, ?_, hrow⟩
  intro k x w hk hw
  obtain ⟨f, hf, h2⟩ := hget k (x, k) (by rw [List.getElem?_zipIdx]; simp [simStates, hk])
  obtain ⟨w', hw', h3⟩ := exBind_ok.1 h2
  simp only [simRows, List.length_cons, List.length_nil, hrow k w hw] at hw'
  cases hw'
  obtain ⟨ys, hy1, -, rfl⟩ := solveFrame_ok.1 h3
  exact ⟨ys, hy1, hc k _ hf⟩

example : simulate addSteps 1 0 (.inl [5, 7]) (.array [10, 20]) (some [0, 3]) = .ok ([⟨0, 0, 5⟩, ⟨0, 3, 15⟩, ⟨1, 0, 7⟩, ⟨1, 3, 27⟩], [⟨0, 0, 10⟩, ⟨1, 0, 20⟩]) := by decide +kernel

/-- **C139 (one initial condition, control as array).** With a control array of two or more rows, the single initial state is driven by these rows at the given time values, which must be one more than the rows; otherwise the call
is rejected. -/
theorem C139_array_series (solve : List W → E → List Int → Option (List E)) (dt0 : Int) (zero : W) (x : E) {rows : List W} (hr : 2 ≤ rows.length) {tv : List Int} (h2 : 2 ≤ tv.length) (h0 : ∀ t ∈ tv, 0 ≤ t)
    (hs : tv.Pairwise (· < ·)) {ys : List E} (hsol : solve rows x tv = some ys) (hys : ys.length = tv.length) :
    (tv.length = rows.length + 1 → ∃ S u, simulate solve dt0 zero (.inl [x]) (.array rows) (some tv) = .ok (S, u) ∧ Valid S ∧ (∀ i, HasId S i ↔ i = 0) ∧ content S 0 = tv.zip ys ∧ (∀ i, HasId u i ↔ i = 0) ∧
      content u 0 = tv.dropLast.zip rows) ∧
    (tv.length ≠ rows.length + 1 → simulate solve dt0 zero (.inl [x]) (.array rows) (some tv) = .error .mismatch) := by
  have hok : timesOk tv = true := (timesOk_iff _).2 ⟨h0, hs⟩
  obtain ⟨dt, hdt⟩ : ∃ dt, simDelta (W := W) dt0 (.array rows) (some tv) = .ok dt := by
    match tv, h2 with
    | a :: b :: m, _ => exact ⟨b - a, rfl⟩
  have hctl : simControl 1 zero (.array rows) (some tv) = .ok (.inl rows) := by
    simp only [simControl]
    rw [if_neg (by omega), if_neg (by omega)]
  have href : simReference (.inl [x] : List E ⊕ List (Row Int E)) (.inl rows) = .ok 0 := rfl
  constructor
  · intro hlen
    have htimes : simTimes false 0 dt (.inl rows) (some tv) = .ok tv := by
      simp [simTimes, hok, timesAgree, hlen]
    let u : List (Row Int W) := List.zipWith (fun t w => (⟨0, t, w⟩ : Row Int W)) tv.dropLast rows
    have hu : u = (tv.dropLast.zip rows).map (fun p => (⟨0, p.1, p.2⟩ : Row Int W)) := by
      show List.zipWith _ _ _ = _
      rw [List.zip, List.map_zipWith]
    have hdl : tv.dropLast.length = rows.length := by rw [List.length_dropLast]; omega
    have hfst : (tv.dropLast.zip rows).map (·.1) = tv.dropLast := by rw [List.map_fst_zip (by omega)]
    have hdls : tv.dropLast.Pairwise (· < ·) := hs.sublist (List.dropLast_sublist _)
    have hone : ∀ r ∈ u, r.id = 0 := by
      intro r hr
      rw [hu] at hr
      obtain ⟨p, -, rfl⟩ := List.mem_map.1 hr
      rfl
    have hune : u ≠ [] := by
      rw [hu]
      intro h
      have := congrArg List.length h
      rw [List.length_map, List.length_zip, hdl, List.length_nil] at this
      omega
    have hser : series u 0 = u := List.filter_eq_self.2 (fun r hr => by simp [hone r hr])
    have huv : Valid u := by
      have hsorted : u.Pairwise (fun a b => a.time < b.time) := by
        rw [hu, List.pairwise_map]
        have := hdls
        rw [← hfst, List.pairwise_map] at this
        exact this
      rw [valid_iff]
      refine ⟨?_, hsorted.imp (fun {a b} h (_ : a.id = b.id) => h)⟩
      have hl : ∀ l : List Nat, (∀ a ∈ l, a = 0) → (newIds l).Nodup := by
        intro l
        fun_induction newIds l with
        | case1 => intro _; simp
        | case2 a => intro _; simp
        | case3 b l ih => intro h; exact ih (fun x hx => h x (List.mem_cons_of_mem _ hx))
        | case4 a b l hab ih => intro h; exact absurd ((h a (by simp)).trans (h b (by simp)).symm) hab
      exact hl _ (fun b hb => by
        obtain ⟨r, hr, rfl⟩ := List.mem_map.1 hb
        exact hone r hr)
    have hcu : content u 0 = tv.dropLast.zip rows := by
      unfold content
      rw [hser, hu, List.map_map]
      simp [Function.comp_def]
    have hid : ∀ i, HasId u i ↔ i = 0 := by
      intro i
      constructor
      · rintro ⟨r, hr, rfl⟩; exact hone r hr
      · rintro rfl
        obtain ⟨r, t, hrt⟩ := List.ne_nil_iff_exists_cons.1 hune
        have : r ∈ u := by rw [hrt]; simp
        exact ⟨r, this, hone r this⟩
    have hids : ids u = [0] := eq_of_pairwise_lt (ids_sorted u) (by simp) (fun i => by rw [mem_ids, hid]; simp)
    have hidx : simIndex (.inl rows) tv = .ok u := by
      simp only [simIndex]
      rw [if_neg (by omega)]
      exact ofTsc_ok.2 (build_ok_of_valid huv hune)
    have hrows : simRows u tv 0 = .ok rows := by
      unfold simRows
      rw [if_neg (by omega), hids]
      simp only [List.getElem?_cons_zero, hcu]
      rw [List.map_snd_zip (by omega)]
    have hframe : solveFrame (solve rows) tv x = .ok (tv.zip ys) := solveFrame_ok.2 ⟨ys, hsol, hys, rfl⟩
    have hmap : (simStates (.inl [x] : List E ⊕ List (Row Int E))).zipIdx.mapM (fun p => (simRows u tv p.2).bind fun w => solveFrame (solve w) tv p.1) = .ok [tv.zip ys] := by
      simp [simStates, hrows, Except.bind, hframe]
    obtain ⟨S, hS⟩ := build_frames (frames := [tv.zip ys]) (by simp) (by rintro rfl; simp at h2) hs (by intro f hf; simp at hf; rw [hf]; exact zip_fst hys)
    obtain ⟨hv, hn', hc⟩ := frames_result hS
    refine ⟨S, u, ?_, hv, fun i => ?_, hc 0 _ rfl, hid, hcu⟩
    · unfold simulate
      exact exBind_ok.2 ⟨dt, hdt, exBind_ok.2 ⟨.inl rows, hctl, exBind_ok.2 ⟨_, href, exBind_ok.2 ⟨tv, htimes, exBind_ok.2 ⟨u, hidx, exBind_ok.2 ⟨_, hmap, exBind_ok.2 ⟨S, ofTsc_ok.2 hS, rfl⟩⟩⟩⟩⟩⟩⟩
    · rw [← mem_ids, mem_ids', ← mem_newIds, hn', List.mem_range]; simp
  · intro hlen
    have htimes : simTimes false 0 dt (.inl rows) (some tv) = .error .mismatch := by
      simp [simTimes, hok, timesAgree, hlen]
    unfold simulate
    rw [hdt]
    simp only [Except.bind, simStates, List.length_cons, List.length_nil, Nat.zero_add, hctl, href, Sum.isRight_inl, htimes]

example : ∃ S u, simulate addSteps 1 0 (.inl [5]) (.array [10, 20]) (some [0, 1, 2]) = .ok (S, u) ∧ content u 0 = [(0, 10), (1, 20)] := ⟨_, _, rfl, rfl⟩

/-- **C139 (given time values).** With time values, an accepted simulation of a collection of initial conditions starts at their time. -/
theorem C139_given_start (solve : List W → E → List Int → Option (List E)) (dt0 : Int) (zero : W) {X : List (Row Int E)} (hX : Valid X) (hXne : X ≠ []) {t : Int} (ht : ∀ r ∈ X, r.time = t) {U : SimControl W}
    {given : List Int} (hne : given ≠ []) {S : List (Row Int E)} {u : List (Row Int W)} (h : simulate solve dt0 zero (.inr X) U (some given) = .ok (S, u)) :
    ∀ i, HasId S i → (timesOf S i).head? = some t ∧ ∀ s ∈ given, s ∈ timesOf S i := by
  obtain ⟨hv, hid, -⟩ := simulate_result h
  obtain ⟨dt, -, h⟩ := exBind_ok.1 h
  obtain ⟨u0, hu0, h⟩ := exBind_ok.1 h
  obtain ⟨ref, href, h⟩ := exBind_ok.1 h
  obtain ⟨tv, htv, h⟩ := exBind_ok.1 h
  obtain ⟨u', hu', h⟩ := exBind_ok.1 h
  obtain ⟨frames, hm, h⟩ := exBind_ok.1 h
  obtain ⟨S', hS, h⟩ := exBind_ok.1 h
  cases h
  obtain ⟨-, -, hc⟩ := frames_result (ofTsc_ok.1 hS)
  obtain ⟨-, hget⟩ := mapM_ok_get _ _ _ hm
  have hr : ref = t := by
    obtain ⟨f, hf, -, hfid, hfs⟩ := (C06_final hXne hX 1).1 ⟨le_refl _, fun i hi => by
      have := List.length_pos_iff.2 (hasId_iff_series.1 hi); omega⟩
    have hsub : ∀ r ∈ f, r ∈ X := by
      intro r hr
      have : r ∈ series f r.id := by simp [series, hr]
      rw [hfs] at this
      exact (mem_series.1 (List.mem_of_mem_drop this)).1
    have hfne : f ≠ [] := by
      rintro rfl
      obtain ⟨r0, l, rfl⟩ := List.ne_nil_iff_exists_cons.1 hXne
      obtain ⟨r, hr, -⟩ := (hfid r0.id).2 ⟨r0, by simp, rfl⟩
      simp at hr
    have hu : timeValues f = [t] := unique_const (by simpa using hfne) (by
      intro a ha
      obtain ⟨r, hr, rfl⟩ := List.mem_map.1 ha
      exact ht r (hsub r hr))
    simp only [simReference, hf, hu] at href
    cases href; rfl
  subst hr
  have htv' : tv.head? = some ref ∧ ∀ s ∈ given, s ∈ tv := by
    unfold simTimes at htv
    simp only [Sum.isRight_inr, Bool.true_eq_false, if_false] at htv
    split at htv
    · cases htv
    · split at htv
      · cases htv
      · split at htv
        · cases htv
        · obtain ⟨g, gs, rfl⟩ := List.ne_nil_iff_exists_cons.1 hne
          split at htv
          · rename_i hh
            cases htv
            simp only [List.headD_cons] at hh
            exact ⟨by simp [hh], fun s hs => hs⟩
          · cases htv
            exact ⟨rfl, fun s hs => List.mem_cons_of_mem _ hs⟩
  intro i hi
  have hlt := (hid i).1 hi
  obtain ⟨f, hf, h2⟩ := hget i ((simStates (.inr X))[i], i) (by rw [List.getElem?_zipIdx, List.getElem?_eq_getElem hlt]; simp)
  obtain ⟨w', hw', h3⟩ := exBind_ok.1 h2
  obtain ⟨ys, -, hy, rfl⟩ := solveFrame_ok.1 h3
  have e1 : timesOf S i = tv := by
    have : timesOf S i = (content S i).map (·.1) := by simp [timesOf, content]
    rw [this, hc i _ hf, zip_fst hy]
  rw [e1]
  exact htv'

example : simulate addSteps 1 0 (.inr [⟨0, 1, 5⟩]) (.tsc [⟨0, 0, 10⟩, ⟨0, 2, 10⟩, ⟨0, 4, 10⟩]) (some [2, 4, 6]) =
    .ok ([⟨0, 1, 5⟩, ⟨0, 2, 15⟩, ⟨0, 4, 25⟩, ⟨0, 6, 35⟩], [⟨0, 0, 10⟩, ⟨0, 2, 10⟩, ⟨0, 4, 10⟩]) := by decide +kernel

end Verif.Utils
