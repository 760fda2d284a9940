import Verif.Utils.SimulateFun
import Verif.Utils.SimulateProps
import Verif.Tsc.SelectProps
/-! # C234: simulations with a control function -/

namespace Verif.Utils

open Verif.Np Verif.Tsc

variable {E W : Type}

/-- A vectorised control function: called with stacked times and states it returns its value for each of them. -/
def ControlFun.Vectorised (f : ControlFun E W) : Prop := ∀ ts xs, ts.length = xs.length → f.stacked ts xs = some (List.zipWith (fun (t : Int) (x : E) => f.single t x) ts xs)

theorem zipWith_rows (f : ControlFun E W) (B : List (Row Int E)) :
    List.zipWith (fun (r : Row Int E) (w : W) => (⟨r.id, r.time, w⟩ : Row Int W)) B (List.zipWith (fun (t : Int) (x : E) => f.single t x) (B.map (·.time)) (B.map (·.val))) =
      B.map (fun r => ⟨r.id, r.time, f.single r.time r.val⟩) := by
  induction B with
  | nil => rfl
  | cons a B ih => rw [List.map_cons, List.map_cons, List.zipWith_cons_cons, List.zipWith_cons_cons, ih, List.map_cons]

theorem valid_of_keys {V V' : Type} {c : List (Row Int V)} {d : List (Row Int V')} (h : d.map (·.key) = c.map (·.key)) (hv : Valid c) : Valid d := by
  rw [← valid_keyRows, h, valid_keyRows]; exact hv

/-- the returned control of a vectorised function -/
theorem funControl_ok {f : ControlFun E W} (hf : f.Vectorised) {S : List (Row Int E)} (hne : S ≠ []) (hv : Valid S) (h2 : ∀ i, HasId S i → 2 ≤ (series S i).length) :
    ∃ u, funControl f S = .ok u ∧ Valid u ∧ (∀ i, HasId u i ↔ HasId S i) ∧ ∀ i, content u i = (content S i).dropLast.map (fun p => (p.1, f.single p.1 p.2)) := by
  obtain ⟨r0, hr0⟩ := List.exists_mem_of_ne_nil _ hne
  obtain ⟨B, hB, hBv, hBs, -⟩ := C07_drop_last hne hv 1 (fun i hi => by have := h2 i hi; omega) ⟨r0.id, by have := h2 r0.id ⟨r0, hr0, rfl⟩; omega⟩
  have hBid : ∀ i, HasId B i ↔ HasId S i := by
    intro i
    rw [hasId_iff_series, hBs, hasId_iff_series]
    constructor
    · intro h e; rw [e] at h; simp at h
    · intro h e
      have h3 := h2 i (hasId_iff_series.2 h)
      have := congrArg List.length e
      simp at this
      omega
  have hBne : B ≠ [] := by
    rintro rfl
    obtain ⟨r, hr, -⟩ := (hBid r0.id).2 ⟨r0, hr0, rfl⟩
    simp at hr
  have huv : Valid (B.map (fun r => (⟨r.id, r.time, f.single r.time r.val⟩ : Row Int W))) := valid_of_keys (by rw [List.map_map]; rfl) hBv
  refine ⟨B.map (fun r => ⟨r.id, r.time, f.single r.time r.val⟩), ?_, huv, ?_, ?_⟩
  · unfold funControl
    refine exBind_ok.2 ⟨B, ofTsc_ok.2 hB, ?_⟩
    rw [hf _ _ (by simp)]
    simp only
    rw [if_neg (by simp), zipWith_rows]
    exact ofTsc_ok.2 (build_ok_of_valid huv (by simpa using hBne))
  · intro i
    rw [← hBid]
    simp [HasId]
  · intro i
    have h1 : content (B.map (fun r => (⟨r.id, r.time, f.single r.time r.val⟩ : Row Int W))) i = (content B i).map (fun p => (p.1, f.single p.1 p.2)) := by
      simp only [content, series, List.filter_map, List.map_map]
      rfl
    have h3 : content B i = (content S i).dropLast := by
      simp only [content, hBs, List.map_take, List.dropLast_eq_take, List.length_map]
    rw [h1, h3]

theorem runFun_ok (solve : (ℚ → E → W) → E → List Int → Option (List E)) {f : ControlFun E W} {xs : List E} {tv : List Int} {S : List (Row Int E)} {u : List (Row Int W)} :
    runFun solve f xs tv = .ok (S, u) ↔ ∃ frames, xs.mapM (solveFrame (solve f.single) tv) = .ok frames ∧ fromFrameList (frames.map Sum.inr) none = .ok S ∧ funControl f S = .ok u := by
  unfold runFun
  simp only [exBind_ok, ofTsc_ok]
  constructor
  · rintro ⟨a, h1, S', h2, u', h3, h4⟩
    cases h4
    exact ⟨a, h1, h2, h3⟩
  · rintro ⟨a, h1, h2, h3⟩
    exact ⟨a, h1, S, h2, u, h3, rfl⟩

/-- the states of a run -/
theorem runFun_states {solve : (ℚ → E → W) → E → List Int → Option (List E)} {f : ControlFun E W} {xs : List E} {tv : List Int} {frames : List (List (Int × E))} {S : List (Row Int E)}
    (hm : xs.mapM (solveFrame (solve f.single) tv) = .ok frames) (hS : fromFrameList (frames.map Sum.inr) none = .ok S) :
    Valid S ∧ (∀ i, HasId S i ↔ i < xs.length) ∧
      ∀ (k : Nat) (x : E), xs[k]? = some x → ∃ ys, solve f.single x tv = some ys ∧ ys.length = tv.length ∧ content S k = tv.zip ys := by
  obtain ⟨hv, hn, hc⟩ := frames_result hS
  obtain ⟨hl, hget⟩ := mapM_ok_get _ _ _ hm
  refine ⟨hv, fun i => by rw [← mem_ids, mem_ids', ← mem_newIds, hn, List.mem_range, hl], ?_⟩
  intro k x hk
  obtain ⟨v, hv1, hv2⟩ := hget k x hk
  obtain ⟨ys, h1, h2, rfl⟩ := solveFrame_ok.1 hv2
  exact ⟨ys, h1, h2, hc k _ hv1⟩

/-- a run of a vectorised function -/
theorem runFun_vectorised (solve : (ℚ → E → W) → E → List Int → Option (List E)) {f : ControlFun E W} (hf : f.Vectorised) {xs : List E} (hne : xs ≠ []) {tv : List Int} (h2 : 2 ≤ tv.length) (hs : tv.Pairwise (· < ·)) :
    ((∃ r, runFun solve f xs tv = .ok r) ↔ ∀ x ∈ xs, ∃ ys, solve f.single x tv = some ys ∧ ys.length = tv.length) ∧
    ∀ S u, runFun solve f xs tv = .ok (S, u) → Valid S ∧ Valid u ∧ (∀ i, HasId S i ↔ i < xs.length) ∧ (∀ i, HasId u i ↔ i < xs.length) ∧
      ∀ (k : Nat) (x : E), xs[k]? = some x → ∃ ys, solve f.single x tv = some ys ∧ ys.length = tv.length ∧ content S k = tv.zip ys ∧
        content u k = (tv.zip ys).dropLast.map (fun p => (p.1, f.single p.1 p.2)) := by
  have hctl : ∀ frames S, xs.mapM (solveFrame (solve f.single) tv) = .ok frames → fromFrameList (frames.map Sum.inr) none = .ok S →
      ∃ u, funControl f S = .ok u ∧ Valid u ∧ (∀ i, HasId u i ↔ HasId S i) ∧ ∀ i, content u i = (content S i).dropLast.map (fun p => (p.1, f.single p.1 p.2)) := by
    intro frames S hm hS
    obtain ⟨hv, hid, hc⟩ := runFun_states hm hS
    have hlen : ∀ i, HasId S i → 2 ≤ (series S i).length := by
      intro i hi
      have hi' := (hid i).1 hi
      obtain ⟨ys, -, h4, h5⟩ := hc i _ (List.getElem?_eq_getElem hi')
      have := congrArg List.length h5
      simp [content, h4] at this
      omega
    refine funControl_ok hf ?_ hv hlen
    rintro rfl
    obtain ⟨r, hr, -⟩ := (hid 0).2 (List.length_pos_iff.2 hne)
    simp at hr
  refine ⟨⟨?_, ?_⟩, ?_⟩
  · rintro ⟨⟨S, u⟩, h⟩ x hx
    obtain ⟨frames, hm, -, -⟩ := (runFun_ok solve).1 h
    obtain ⟨b, hb⟩ := (mapM_ok_iff _ _).1 ⟨frames, hm⟩ x hx
    obtain ⟨ys, h3, h4, -⟩ := solveFrame_ok.1 hb
    exact ⟨ys, h3, h4⟩
  · intro h
    obtain ⟨frames, hm⟩ := (mapM_ok_iff (solveFrame (solve f.single) tv) xs).2 (fun x hx => by
      obtain ⟨ys, h3, h4⟩ := h x hx
      exact ⟨_, solveFrame_ok.2 ⟨ys, h3, h4, rfl⟩⟩)
    obtain ⟨hl, hget⟩ := mapM_ok_get _ _ _ hm
    obtain ⟨S, hS⟩ := build_frames (frames := frames) (tv := tv) (by
        rintro rfl
        exact hne (List.eq_nil_of_length_eq_zero hl.symm)) (by rintro rfl; simp at h2) hs (by
        intro g hg
        obtain ⟨k, hk⟩ := List.getElem?_of_mem hg
        have hlt : k < xs.length := by rw [← hl]; exact (List.getElem?_eq_some_iff.1 hk).1
        obtain ⟨v, hv1, hv2⟩ := hget k _ (List.getElem?_eq_getElem hlt)
        rw [hk] at hv1
        cases hv1
        obtain ⟨ys, -, hy2, rfl⟩ := solveFrame_ok.1 hv2
        exact zip_fst hy2)
    obtain ⟨u, hu, -⟩ := hctl frames S hm hS
    exact ⟨(S, u), (runFun_ok solve).2 ⟨frames, hm, hS, hu⟩⟩
  · intro S u h
    obtain ⟨frames, hm, hS, hu⟩ := (runFun_ok solve).1 h
    obtain ⟨hv, hid, hc⟩ := runFun_states hm hS
    obtain ⟨u', hu', huv, huid, huc⟩ := hctl frames S hm hS
    rw [hu] at hu'
    cases hu'
    refine ⟨hv, huv, hid, fun i => by rw [huid, hid], ?_⟩
    intro k x hk
    obtain ⟨ys, h3, h4, h5⟩ := hc k x hk
    exact ⟨ys, h3, h4, h5, by rw [huc, h5]⟩

/-- Everything that is promised of states `S` and control data `u` of a simulation of `xs` at the times `tv`: number `k` of the initial states gives the series with ID `k`; the control is that of the function at each sample but the last. -/
def IsSimulated (solve : (ℚ → E → W) → E → List Int → Option (List E)) (f : ℚ → E → W) (xs : List E) (tv : List Int) (S : List (Row Int E)) (u : List (Row Int W)) : Prop :=
  Valid S ∧ Valid u ∧ (∀ i, HasId S i ↔ i < xs.length) ∧ (∀ i, HasId u i ↔ i < xs.length) ∧
    ∀ (k : Nat) (x : E), xs[k]? = some x → ∃ ys, solve f x tv = some ys ∧ ys.length = tv.length ∧ content S k = tv.zip ys ∧ content u k = (tv.zip ys).dropLast.map (fun p => (p.1, f p.1 p.2))

theorem simDelta_given (tv : List Int) : (∃ d, simDelta (W := W) 1 .none (some tv) = .ok d) ↔ 2 ≤ tv.length := by
  match tv with
  | [] => simp [simDelta]
  | [_] => simp [simDelta]
  | _ :: _ :: _ => simp [simDelta]

theorem simReference_common {X : List (Row Int E)} (hX : Valid X) (hne : X ≠ []) {t : Int} (ht : ∀ r ∈ X, r.time = t) (U : List W ⊕ List (Row Int W)) : simReference (.inr X) U = .ok t := by
  obtain ⟨f, hf, -, hfid, hfs⟩ := (C06_final hne hX 1).1 ⟨le_refl _, fun i hi => by
    have := List.length_pos_iff.2 (hasId_iff_series.1 hi); omega⟩
  have hsub : ∀ r ∈ f, r ∈ X := by
    intro r hr
    have : r ∈ series f r.id := by simp [series, hr]
    rw [hfs] at this
    exact (mem_series.1 (List.mem_of_mem_drop this)).1
  obtain ⟨r0, hr0⟩ := List.exists_mem_of_ne_nil _ hne
  have hfne : f ≠ [] := by
    rintro rfl
    obtain ⟨r, hr, -⟩ := (hfid r0.id).2 ⟨r0, hr0, rfl⟩
    simp at hr
  have hu : timeValues f = [t] := unique_const (by simpa using hfne) (by
    intro a ha
    obtain ⟨r, hr, rfl⟩ := List.mem_map.1 ha
    exact ht r (hsub r hr))
  simp only [simReference, hf, hu]

theorem funTimes_array {ref : Int} {tv tv' : List Int} : funTimes false ref (some tv) = .ok tv' ↔ ((∀ t ∈ tv, 0 ≤ t) ∧ tv.Pairwise (· < ·)) ∧ tv' = tv := by
  unfold funTimes
  rw [← timesOk_iff]
  cases h : timesOk tv
  · simp [h]
  · simp [h, eq_comm (a := tv')]

theorem head_iff_mem {t : Int} {tv : List Int} (hne : tv ≠ []) (hs : tv.Pairwise (· < ·)) (hle : ∀ s ∈ tv, t ≤ s) : tv.headD 0 = t ↔ t ∈ tv := by
  match tv, hne with
  | a :: l, _ =>
    constructor
    · rintro rfl; simp
    · intro h
      rcases List.mem_cons.1 h with rfl | h
      · rfl
      · have h1 := (List.pairwise_cons.1 hs).1 t h
        have h2 := hle a (by simp)
        omega

theorem funTimes_collection {t : Int} {tv tv' : List Int} (hne : tv ≠ []) :
    funTimes true t (some tv) = .ok tv' ↔ ((∀ s ∈ tv, 0 ≤ s) ∧ tv.Pairwise (· < ·) ∧ ∀ s ∈ tv, t ≤ s) ∧ tv' = if t ∈ tv then tv else t :: tv := by
  unfold funTimes
  by_cases h1 : timesOk tv = true
  · have h1' := (timesOk_iff tv).1 h1
    by_cases h2 : ∀ s ∈ tv, t ≤ s
    · have h3 : tv.any (fun s => decide (s < t)) = false := by
        rw [List.any_eq_false]
        intro s hs
        have := h2 s hs
        simpa using this
      simp only [h1, h3, if_neg (by simp : ¬ (true = false)), head_iff_mem hne h1'.2 h2]
      have h4 : ((∀ s ∈ tv, 0 ≤ s) ∧ tv.Pairwise (· < ·) ∧ ∀ s ∈ tv, t ≤ s) := ⟨h1'.1, h1'.2, h2⟩
      rw [and_iff_right h4]
      by_cases h5 : t ∈ tv <;> simp [h5, eq_comm]
    · have h3 : tv.any (fun s => decide (s < t)) = true := by
        push Not at h2
        obtain ⟨s, hs, hlt⟩ := h2
        exact List.any_eq_true.2 ⟨s, hs, by simpa using hlt⟩
      simp only [h1, h3, if_neg (by simp : ¬ (true = false)), if_true]
      constructor
      · intro h; simp at h
      · rintro ⟨⟨-, -, h⟩, -⟩; exact absurd h h2
  · have h1'' : timesOk tv = false := by simpa using h1
    rw [timesOk_iff] at h1
    simp only [h1'', if_true]
    constructor
    · intro h; simp at h
    · rintro ⟨⟨h2, h3, -⟩, -⟩; exact absurd ⟨h2, h3⟩ h1

/-- a simulation with a vectorised function, in terms of its time values -/
theorem simulateFun_times (solve : (ℚ → E → W) → E → List Int → Option (List E)) {f : ControlFun E W} (hf : f.Vectorised) {X : List E ⊕ List (Row Int E)} (hne : simStates X ≠ []) {ref : Int}
    (href : simReference (W := W) X (.inl []) = .ok ref) {tv tv' : List Int} {P : Prop} (htimes : 2 ≤ tv.length → ∀ l, funTimes X.isRight ref (some tv) = .ok l ↔ P ∧ l = tv')
    (hP : 2 ≤ tv.length → P → 2 ≤ tv'.length ∧ tv'.Pairwise (· < ·)) :
    ((∃ r, simulateFun solve f X (some tv) = .ok r) ↔ 2 ≤ tv.length ∧ P ∧ ∀ x ∈ simStates X, ∃ ys, solve f.single x tv' = some ys ∧ ys.length = tv'.length) ∧
    ∀ S u, simulateFun solve f X (some tv) = .ok (S, u) → IsSimulated solve f.single (simStates X) tv' S u := by
  have key : ∀ r, simulateFun solve f X (some tv) = .ok r ↔ 2 ≤ tv.length ∧ P ∧ runFun solve f (simStates X) tv' = .ok r := by
    intro r
    unfold simulateFun
    rw [exBind_ok]
    constructor
    · rintro ⟨d, hd, h⟩
      obtain ⟨ref', hr, h'⟩ := exBind_ok.1 h
      obtain ⟨l, hl, h''⟩ := exBind_ok.1 h'
      have h2 := (simDelta_given tv).1 ⟨d, hd⟩
      rw [href] at hr
      cases hr
      obtain ⟨hp, rfl⟩ := (htimes h2 l).1 hl
      exact ⟨h2, hp, h''⟩
    · rintro ⟨h2, hp, h⟩
      obtain ⟨d, hd⟩ := (simDelta_given (W := W) tv).2 h2
      exact ⟨d, hd, exBind_ok.2 ⟨ref, href, exBind_ok.2 ⟨tv', (htimes h2 tv').2 ⟨hp, rfl⟩, h⟩⟩⟩
  constructor
  · constructor
    · rintro ⟨r, h⟩
      obtain ⟨h2, hp, h⟩ := (key r).1 h
      obtain ⟨h3, h4⟩ := hP h2 hp
      exact ⟨h2, hp, (runFun_vectorised solve hf hne h3 h4).1.1 ⟨r, h⟩⟩
    · rintro ⟨h2, hp, h⟩
      obtain ⟨h3, h4⟩ := hP h2 hp
      obtain ⟨r, hr⟩ := (runFun_vectorised solve hf hne h3 h4).1.2 h
      exact ⟨r, (key r).2 ⟨h2, hp, hr⟩⟩
  · intro S u h
    obtain ⟨h2, hp, h⟩ := (key _).1 h
    obtain ⟨h3, h4⟩ := hP h2 hp
    exact (runFun_vectorised solve hf hne h3 h4).2 S u h

/-- **C234 (array of initial states).** With a vectorised control function the simulation is accepted if and only if at least two non-negative, strictly increasing time values are given and the solver succeeds for each initial state;
every state is then simulated with the function itself, and the control data are its values at the returned times and states. -/
theorem C234_array (solve : (ℚ → E → W) → E → List Int → Option (List E)) {f : ControlFun E W} (hf : f.Vectorised) {X : List E} (hne : X ≠ []) (tv : List Int) :
    ((∃ r, simulateFun solve f (.inl X) (some tv) = .ok r) ↔ 2 ≤ tv.length ∧ (∀ t ∈ tv, 0 ≤ t) ∧ tv.Pairwise (· < ·) ∧ ∀ x ∈ X, ∃ ys, solve f.single x tv = some ys ∧ ys.length = tv.length) ∧
    ∀ S u, simulateFun solve f (.inl X) (some tv) = .ok (S, u) → IsSimulated solve f.single X tv S u := by
  have h := simulateFun_times solve hf (X := .inl X) hne (ref := 0) rfl (tv := tv) (tv' := tv) (P := (∀ t ∈ tv, 0 ≤ t) ∧ tv.Pairwise (· < ·)) (fun _ l => funTimes_array) (fun h2 hp => ⟨h2, hp.2⟩)
  refine ⟨h.1.trans ?_, h.2⟩
  rw [and_assoc]; rfl

/-- **C234 (collection of initial conditions).** Initial conditions at a common time `t`: the given time values must not be smaller, and the simulation starts at `t` (which is added in front if it is not given). -/
theorem C234_collection (solve : (ℚ → E → W) → E → List Int → Option (List E)) {f : ControlFun E W} (hf : f.Vectorised) {X : List (Row Int E)} (hX : Valid X) (hne : X ≠ []) {t : Int} (ht : ∀ r ∈ X, r.time = t) (tv : List Int) :
    ((∃ r, simulateFun solve f (.inr X) (some tv) = .ok r) ↔ 2 ≤ tv.length ∧ (∀ s ∈ tv, 0 ≤ s) ∧ tv.Pairwise (· < ·) ∧ (∀ s ∈ tv, t ≤ s) ∧
      ∀ r ∈ X, ∃ ys, solve f.single r.val (if t ∈ tv then tv else t :: tv) = some ys ∧ ys.length = (if t ∈ tv then tv else t :: tv).length) ∧
    ∀ S u, simulateFun solve f (.inr X) (some tv) = .ok (S, u) → IsSimulated solve f.single (X.map (·.val)) (if t ∈ tv then tv else t :: tv) S u := by
  have hne' : simStates (.inr X : List E ⊕ List (Row Int E)) ≠ [] := by simpa [simStates] using hne
  have h := simulateFun_times solve hf (X := .inr X) hne' (simReference_common hX hne ht _) (tv := tv) (tv' := if t ∈ tv then tv else t :: tv)
    (P := (∀ s ∈ tv, 0 ≤ s) ∧ tv.Pairwise (· < ·) ∧ ∀ s ∈ tv, t ≤ s) (fun h2 l => funTimes_collection (by rintro rfl; simp at h2)) (fun h2 hp => by
      obtain ⟨-, h3, h4⟩ := hp
      by_cases hm : t ∈ tv
      · rw [if_pos hm]; exact ⟨h2, h3⟩
      · rw [if_neg hm]
        refine ⟨by simp; omega, List.pairwise_cons.2 ⟨fun s hs => lt_of_le_of_ne (h4 s hs) (fun e => hm (e ▸ hs)), h3⟩⟩)
  refine ⟨h.1.trans ?_, h.2⟩
  simp only [and_assoc, simStates, List.forall_mem_map]

/-- **C234 (refused calls).** Without time values a control function is always refused. -/
theorem C234_times (solve : (ℚ → E → W) → E → List Int → Option (List E)) (f : ControlFun E W) (X : List E ⊕ List (Row Int E)) : ∃ e, simulateFun solve f X none = .error e := by
  unfold simulateFun
  simp only [simDelta, Except.bind]
  cases simReference (W := W) X (.inl []) with
  | error e => exact ⟨e, rfl⟩
  | ok r => exact ⟨.timeValues, rfl⟩

/-- **C234 (different times).** Initial conditions at different times are always refused. -/
theorem C234_reference (solve : (ℚ → E → W) → E → List Int → Option (List E)) (f : ControlFun E W) {X : List (Row Int E)} (hX : Valid X) {a b : Row Int E} (ha : series X a.id = [a]) (hb : series X b.id = [b])
    (hab : a.time ≠ b.time) (given : Option (List Int)) : ∃ e, simulateFun solve f (.inr X) given = .error e := by
  have haX : a ∈ X := (mem_series.1 (ha ▸ List.mem_singleton.2 rfl : a ∈ series X a.id)).1
  have hXne : X ≠ [] := List.ne_nil_of_mem haX
  have href : simReference (W := W) (.inr X) (.inl []) = .error .reference := by
    obtain ⟨f, hf, -, -, hfs⟩ := (C06_final hXne hX 1).1 ⟨le_refl _, fun i hi => by
      have := List.length_pos_iff.2 (hasId_iff_series.1 hi); omega⟩
    have hin : ∀ r : Row Int E, series X r.id = [r] → r.time ∈ timeValues f := by
      intro r hr
      have h1 : series f r.id = [r] := by rw [hfs, hr]; simp
      have : r ∈ f := (mem_series.1 (h1 ▸ List.mem_singleton.2 rfl : r ∈ series f r.id)).1
      rw [timeValues, mem_unique]
      exact List.mem_map.2 ⟨r, this, rfl⟩
    have h1 := hin a ha
    have h2 := hin b hb
    simp only [simReference, hf]
    split
    · rename_i r hr
      rw [hr] at h1 h2
      simp only [List.mem_singleton] at h1 h2
      exact absurd (h1.trans h2.symm) hab
    · rfl
  unfold simulateFun
  cases simDelta (W := W) 1 .none given with
  | error e => exact ⟨e, rfl⟩
  | ok dt => simp only [Except.bind, href]; exact ⟨_, rfl⟩

/-- A control function that returns one row whatever it is called with, such as `lambda t, x: np.array([[c]])`. -/
def constantRow (c : W) : ControlFun E W := ⟨fun _ _ => c, fun _ _ => some [c]⟩

/-- **C234 is false for functions that are not vectorised.** A constant control function works during the integration, but the call is refused whenever there are two or more control states. -/
theorem C234_constant_violated (solve : (ℚ → E → W) → E → List Int → Option (List E)) (c : W) (X : List E) (tv : List Int) (h : 1 < X.length ∨ 2 < tv.length) :
    ∃ e, simulateFun solve (constantRow c) (.inl X) (some tv) = .error e := by
  cases hr : simulateFun solve (constantRow c) (.inl X) (some tv) with
  | error e => exact ⟨e, rfl⟩
  | ok r =>
    exfalso
    obtain ⟨S, u⟩ := r
    unfold simulateFun at hr
    obtain ⟨d, hd, hr1⟩ := exBind_ok.1 hr
    obtain ⟨ref, -, hr2⟩ := exBind_ok.1 hr1
    obtain ⟨l, hl, hr3⟩ := exBind_ok.1 hr2
    have h2 := (simDelta_given tv).1 ⟨d, hd⟩
    obtain ⟨-, rfl⟩ := funTimes_array.1 hl
    obtain ⟨frames, hm, hS, hu⟩ := (runFun_ok solve).1 hr3
    obtain ⟨hv, hid, hc⟩ := runFun_states hm hS
    have hlen : ∀ i, i < X.length → (series S i).length = l.length := by
      intro i hi
      obtain ⟨ys, -, h4, h5⟩ := hc i _ (List.getElem?_eq_getElem hi)
      have := congrArg List.length h5
      simpa [content, h4] using this
    unfold funControl at hu
    obtain ⟨B, hB, hu⟩ := exBind_ok.1 hu
    simp only [constantRow] at hu
    have hB1 : B.length = 1 := by
      by_contra hn
      rw [if_pos (by simpa [eq_comm] using hn)] at hu
      simp at hu
    have hXne : 0 < X.length := by
      rcases Nat.eq_zero_or_pos X.length with h0 | h0
      · exfalso
        have hX : X = [] := List.eq_nil_of_length_eq_zero h0
        rw [hX] at hm
        cases hm
        simp [fromFrameList] at hS
      · exact h0
    have hSne : S ≠ [] := by
      rintro rfl
      obtain ⟨r, hr, -⟩ := (hid 0).2 hXne
      simp at hr
    obtain ⟨B', hB', -, hBs, -⟩ := C07_drop_last hSne hv 1 (fun i hi => by rw [hlen i ((hid i).1 hi)]; omega) ⟨0, by rw [hlen 0 hXne]; omega⟩
    rw [ofTsc_ok, hB'] at hB
    cases hB
    have hBlen : ∀ i, i < X.length → (series B i).length = l.length - 1 := fun i hi => by rw [hBs]; simp [hlen i hi]
    obtain ⟨b, rfl⟩ := List.length_eq_one_iff.1 hB1
    rcases h with h | h
    · have h3 := hBlen 0 hXne
      have h4 := hBlen 1 h
      have h5 : series [b] 0 ≠ [] := by intro e; rw [e] at h3; simp at h3; omega
      have h6 : series [b] 1 ≠ [] := by intro e; rw [e] at h4; simp at h4; omega
      obtain ⟨r, hr, h7⟩ := hasId_iff_series.2 h5
      obtain ⟨r', hr', h8⟩ := hasId_iff_series.2 h6
      simp at hr hr'
      subst hr hr'
      omega
    · have h3 := hBlen 0 hXne
      have h4 : (series [b] 0).length ≤ [b].length := List.length_filter_le _ _
      simp at h4
      omega

/-- A solver that adds the control at the current time and state with every step. -/
def eulerSolve (f : ℚ → ℤ → ℤ) (x : ℤ) : List Int → Option (List ℤ)
  | [] => some []
  | t :: l => (eulerSolve f (x + f t x) l).map (x :: ·)

/-- the feedback `u(t, x) = t - x`, vectorised -/
def feedback : ControlFun ℤ ℤ := ⟨fun t x => t.num - x, fun ts xs => some (List.zipWith (fun t x => t - x) ts xs)⟩

theorem feedback_vectorised : feedback.Vectorised := by
  intro ts xs _
  simp [feedback]

example : ∃ S u, simulateFun eulerSolve feedback (.inl [5, 7]) (some [0, 1, 2]) = .ok (S, u) ∧ content S 1 = [(0, 7), (1, 0), (2, 1)] ∧ content u 1 = [(0, -7), (1, 1)] :=
  ⟨[⟨0, 0, 5⟩, ⟨0, 1, 0⟩, ⟨0, 2, 1⟩, ⟨1, 0, 7⟩, ⟨1, 1, 0⟩, ⟨1, 2, 1⟩], [⟨0, 0, -5⟩, ⟨0, 1, 1⟩, ⟨1, 0, -7⟩, ⟨1, 1, 1⟩], by decide +kernel, by decide +kernel, by decide +kernel⟩

/-- **C234 is false for IDs.** The solution from the initial condition with ID 3 and its control come back under ID 0. -/
theorem C234_ids_violated : simulateFun eulerSolve feedback (.inr [⟨3, 1, 5⟩]) (some [1, 2]) = .ok ([⟨0, 1, 5⟩, ⟨0, 2, 1⟩], [⟨0, 1, -4⟩]) := by decide +kernel

end Verif.Utils
