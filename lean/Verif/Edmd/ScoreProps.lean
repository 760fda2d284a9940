import Verif.Edmd.Score
import Verif.Edmd.ReconstructProps
import Verif.Tsc.MetricProps
import Verif.Tsc.SelectProps
/-!
# `EDMD.score` (C183)
-/

namespace Verif.Edmd

open Verif.Tsc Verif.Np

theorem zipWith_map_key {W : Type} (rows : List (Row Int W)) (keys : List (Key Int)) (hl : rows.length = keys.length) :
    (List.zipWith (fun (r : Row Int W) (key : Key Int) => (⟨key.id, key.time, r.val⟩ : Row Int W)) rows keys).map (·.key) = keys := by
  induction rows generalizing keys with
  | nil => cases keys <;> simp_all
  | cons a rows ih =>
    cases keys with
    | nil => simp at hl
    | cons k keys =>
      have := ih keys (by simpa using hl)
      rw [List.zipWith_cons_cons, List.map_cons, this]
      rfl

/-- The reconstruction carries the recovered index. -/
theorem reconstructEdmd_keys {E V W : Type} {liftE : TscErr → E} {predict : List (Row Int V) → List Int → Except E (List (Row Int W))} {n : Nat} {c : List (Row Int V)} {r : List (Row Int W)}
    (h : (reconstructEdmd liftE predict n c).1 = .ok r) : r.map (·.key) = recoveredIndex c n ∧ r ≠ [] ∧ Valid r := by
  unfold reconstructEdmd at h
  split at h
  · cases h
  split at h
  · cases h
  split at h
  · cases h
  rename_i parts _
  split at h
  · cases h
  rename_i hl
  push Not at hl
  split at h
  · cases h
  rename_i d hd
  cases h
  obtain ⟨rfl, h1, h2⟩ := build_ok_iff.1 hd
  refine ⟨?_, h1, h2⟩
  exact zipWith_map_key _ _ hl

/-- Every entry of the recovered index is in the index. -/
theorem recoveredIndex_mem {V : Type} {c : List (Row Int V)} {n : Nat} {k : Key Int} (h : k ∈ recoveredIndex c n) : k ∈ c.map (·.key) := by
  unfold recoveredIndex at h
  split at h
  · obtain ⟨i, _, hk⟩ := List.mem_flatMap.1 h
    obtain ⟨r, hr, rfl⟩ := List.mem_map.1 (List.mem_of_mem_drop hk)
    exact List.mem_map.2 ⟨r, (List.mem_filter.1 hr).1, rfl⟩
  · exact h

theorem exists_rows {V : Type} (c : List (Row Int V)) (keys : List (Key Int)) (h : ∀ k ∈ keys, k ∈ c.map (·.key)) : ∃ d : List (Row Int V), d.map (·.key) = keys ∧ ∀ r ∈ d, r ∈ c := by
  induction keys with
  | nil => exact ⟨[], rfl, by simp⟩
  | cons k keys ih =>
    obtain ⟨d, h1, h2⟩ := ih (fun k' hk => h k' (by simp [hk]))
    obtain ⟨r, hr, hk⟩ := List.mem_map.1 (h k (by simp))
    exact ⟨r :: d, by simp [h1, hk], by simpa [hr] using h2⟩

/-- Rows of a collection under the same index are equal. -/
theorem rows_unique {V : Type} {c : List (Row Int V)} (hv : Valid c) {d e : List (Row Int V)} (hd : ∀ r ∈ d, r ∈ c) (he : ∀ r ∈ e, r ∈ c) (hk : d.map (·.key) = e.map (·.key)) : d = e := by
  have h1 := (mapM_rowAt hv (d.map (·.key)) d).2 ⟨rfl, hd⟩
  have h2 := (mapM_rowAt hv (d.map (·.key)) e).2 ⟨hk.symm, he⟩
  rw [h1] at h2
  exact Except.ok.inj h2

/-- The reference the reconstruction is compared with: the rows of `X` at the index of the reconstruction. -/
theorem scoreReference_ok {V W : Type} {n : Nat} {c : List (Row Int V)} (hv : Valid c) {r : List (Row Int W)} (hr : r.map (·.key) = recoveredIndex c n) (hne : r ≠ []) (hvr : Valid r) :
    ∃ d, scoreReference n c r = .ok d ∧ d.map (·.key) = r.map (·.key) ∧ ∀ x ∈ d, x ∈ c := by
  unfold scoreReference
  split
  · obtain ⟨d, h1, h2⟩ := exists_rows c (r.map (·.key)) (fun k hk => recoveredIndex_mem (hr ▸ hk))
    have hvd : Valid (keyRows (r.map (·.key))) := by
      rw [valid_iff] at hvr ⊢
      simp only [keyRows, List.pairwise_map, List.map_map, Row.key, Function.comp_def]
      exact hvr
    rw [(C175_index hv (r.map (·.key)) (.tsc d)).2 ⟨by simpa using hne, hvd, d, rfl, h1, h2⟩]
    exact ⟨d, rfl, h1, h2⟩
  · rename_i hn
    refine ⟨c, rfl, ?_, fun x hx => hx⟩
    rw [hr, recoveredIndex, if_neg hn]

/-- **C183 (score).** Whenever `reconstruct` of an `EDMD` model returns, `score` returns a number that is at most 0, and 0 iff every row of the reconstruction is a row of the given collection. -/
theorem C183_score {E : Type} {m : Nat} {liftE : TscErr → E} {predict : List (Row Int (Fin m → ℝ)) → List Int → Except E (List (Row Int (Fin m → ℝ)))} {n : Nat}
    {c r : List (Row Int (Fin m → ℝ))} (hv : Valid c) (h : (reconstructPublic liftE predict n c).1 = .ok r) :
    ∃ x, edmdScore liftE predict n c = .ok x ∧ x ≤ 0 ∧ (x = 0 ↔ ∀ row ∈ r, row ∈ c) := by
  have h' : (reconstructEdmd liftE predict n c).1 = .ok r := by
    unfold reconstructPublic at h
    split at h
    · cases h
    · exact h
  obtain ⟨hk, hne, hvr⟩ := reconstructEdmd_keys h'
  obtain ⟨d, hd, hdk, hdc⟩ := scoreReference_ok hv hk hne hvr
  have hsc : ∃ x, scoreCall .rmse .feature .minMax none .raw false d r = .ok x := by
    unfold scoreCall metricCall pairRows
    simp [hdk, metricBlocks, withWeights, blockMetric]
  obtain ⟨x, hx⟩ := hsc
  obtain ⟨h1, h2⟩ := C63_score_partial .rmse (by decide) .feature .minMax (by decide) none (by simp) .raw (by simp) d r x hx
  refine ⟨x, ?_, h1, h2.trans ⟨?_, ?_⟩⟩
  · unfold edmdScore
    rw [h]
    dsimp only
    rw [hd]
    dsimp only
    rw [hx]
  · rintro rfl
    exact hdc
  · intro hr
    exact rows_unique hv hr hdc hdk.symm

/-- **C183 (exact models; true part).** Regularly sampled series of ascending IDs, each longer than an initial condition and none shorter than one before it. The model predicts the state `f i t` at time `t` after
the first sample of series `i`. Then `score` returns a number that is at most 0, and 0 iff the predictions of every series at its time values from the initial condition on are the given states. Missing: a
shorter series behind a longer one, or unsorted IDs, see `C183_violated`. -/
theorem C183_exact_partial {E : Type} {m : Nat} {liftE : TscErr → E} {predict : List (Row Int (Fin m → ℝ)) → List Int → Except E (List (Row Int (Fin m → ℝ)))} {n : Nat} (hn : 1 ≤ n)
    {c : List (Row Int (Fin m → ℝ))} (hc : c ≠ []) (hv : Valid c) (hs : IdsAscending c) {d : Int} (hreg : ∀ i, HasId c i → Regular (timesOf c i) d)
    (hlen : ∀ i, HasId c i → n < (series c i).length) (hmono : ∀ i j, HasId c i → HasId c j → i < j → (series c i).length ≤ (series c j).length)
    (f : Nat → Int → Fin m → ℝ)
    (hp : ∀ ic times, ic ≠ [] → Valid ic → IdsAscending ic → (∀ i j, HasId ic i → HasId c j → (series c i).length = (series c j).length → HasId ic j) →
      (∀ i, HasId ic i → HasId c i ∧ content ic i = ((content c i).take n).map (fun p => (p.1 - firstTime c i, p.2)) ∧
        times = ((timesOf c i).drop (n - 1)).map (· - firstTime c i)) →
      ∃ r, predict ic times = .ok r ∧ Valid r ∧ IdsAscending r ∧ (∀ i, HasId r i ↔ HasId ic i) ∧ ∀ i, HasId ic i → content r i = times.map (fun t => (t, f i t))) :
    ∃ x, edmdScore liftE predict n c = .ok x ∧ x ≤ 0 ∧ (x = 0 ↔ ∀ i, HasId c i → ∀ p ∈ (content c i).drop (n - 1), f i (p.1 - firstTime c i) = p.2) := by
  obtain ⟨r, hr, -, -, hid, hcont⟩ := C35_reconstruct_partial (liftE := liftE) hn hc hv hs hreg (fun i hi => (hlen i hi).le) hmono f hp
  have hpub : (reconstructPublic liftE predict n c).1 = .ok r := by
    unfold reconstructPublic
    rw [if_neg, hr]
    rw [Bool.not_eq_true', Bool.not_eq_false]
    rw [checkMinTimesteps_iff hc]
    intro i hi
    exact_mod_cast hlen i hi
  obtain ⟨x, hx, h0, hiff⟩ := C183_score hv hpub
  refine ⟨x, hx, h0, hiff.trans ⟨?_, ?_⟩⟩
  · intro hall i hi p hp'
    have hp1 : p.1 ∈ (timesOf c i).drop (n - 1) := by
      have : timesOf c i = (content c i).map (·.1) := by simp [timesOf, content]
      rw [this, ← List.map_drop]
      exact List.mem_map_of_mem hp'
    have hm' : (p.1, f i (p.1 - firstTime c i)) ∈ content r i := by
      rw [hcont i hi]
      exact List.mem_map.2 ⟨p.1, hp1, rfl⟩
    obtain ⟨row, hrow, he⟩ := List.mem_map.1 hm'
    obtain ⟨hrow, hri⟩ := mem_series.1 hrow
    obtain ⟨q, hq, hqe⟩ := List.mem_map.1 (List.mem_of_mem_drop hp')
    obtain ⟨hq, hqi⟩ := mem_series.1 hq
    have hk : row.key = q.key := by
      have h1 := congrArg Prod.fst he
      have h2 := congrArg Prod.fst hqe
      simp only at h1 h2
      simp [Row.key, h1, h2, hri, hqi]
    have := rows_unique hv (d := [row]) (e := [q]) (by simpa using hall row hrow) (by simpa using hq) (by simpa using hk)
    have he' := congrArg Prod.snd he
    have hq' := congrArg Prod.snd hqe
    simp only at he' hq'
    rw [← he', ← hq', (List.cons.inj this).1]
  · intro hex row hrow
    have hi : HasId c row.id := (hid _).1 ⟨row, hrow, rfl⟩
    have hmem : (row.time, row.val) ∈ content r row.id := List.mem_map.2 ⟨row, mem_series.2 ⟨hrow, rfl⟩, rfl⟩
    rw [hcont _ hi] at hmem
    obtain ⟨t, ht, he⟩ := List.mem_map.1 hmem
    have : timesOf c row.id = (content c row.id).map (·.1) := by simp [timesOf, content]
    rw [this, ← List.map_drop] at ht
    obtain ⟨p, hp', rfl⟩ := List.mem_map.1 ht
    have hfp := hex _ hi p hp'
    obtain ⟨q, hq, hqe⟩ := List.mem_map.1 (List.mem_of_mem_drop hp')
    obtain ⟨hq, hqi⟩ := mem_series.1 hq
    have : row = q := by
      rw [hfp] at he
      have h1 := congrArg Prod.fst he
      have h2 := congrArg Prod.snd he
      subst hqe
      cases row; cases q
      simp_all
    rw [this]; exact hq

/-- A model at rest: every predicted state is the initial state. -/
def restReal (ic : List (Row Int (Fin 1 → ℝ))) (times : List Int) : Except TscErr (List (Row Int (Fin 1 → ℝ))) :=
  .ok ((ids ic).flatMap (fun i => times.flatMap (fun t => ((series ic i).getLast?.map (fun r => (⟨i, t, r.val⟩ : Row Int (Fin 1 → ℝ)))).toList)))

/-- A constant series of three samples, and behind it one of two samples. -/
def exShort : List (Row Int (Fin 1 → ℝ)) := [⟨0, 10, ![1]⟩, ⟨0, 15, ![1]⟩, ⟨0, 20, ![1]⟩, ⟨3, 20, ![7]⟩, ⟨3, 25, ![7]⟩]

/-- The same, every series starting at time zero. -/
def exShort0 : List (Row Int (Fin 1 → ℝ)) := [⟨0, 0, ![1]⟩, ⟨0, 5, ![1]⟩, ⟨0, 10, ![1]⟩, ⟨3, 0, ![7]⟩, ⟨3, 5, ![7]⟩]

theorem exShort_valid : Valid exShort := (valid_iff _).2 ⟨by decide, by simp [exShort, Before]⟩

theorem exShort_shift : (shiftPerSeries .int exShort) = (.ok exShort0, exShort0) := by
  have h1 : (groupHead 1 [] exShort).map (fun r => -r.time) = [-10, -20] := by decide +kernel
  have h2 : deltaTime .int exShort = .one (some 5) := by decide +kernel
  have h3 : nTimesteps exShort = .per [(0, 3), (3, 2)] := by decide +kernel
  have h4 : buildInt .int exShort0 = .ok exShort0 := by
    unfold buildInt
    rw [if_neg (by simp [exShort0])]
    exact build_ok_iff.2 ⟨rfl, by simp [exShort0], (valid_iff _).2 ⟨by decide, by simp [exShort0, Before]⟩⟩
  unfold shiftPerSeries
  dsimp only
  rw [h1, if_neg (by decide), h2]
  dsimp only
  rw [h3]
  have h5 : setTimes exShort (List.zipWith (fun (r : Row Int (Fin 1 → ℝ)) s => roundTo 5 (r.time + s)) exShort (repeatSteps [-10, -20] (.per [(0, 3), (3, 2)]))) = exShort0 := by
    simp [setTimes, exShort, exShort0, repeatSteps, roundTo]
  rw [h5, h4]

theorem exShort_groups : iterReconstruct .int exShort0 1 = .ok [([⟨3, 0, ![7]⟩], [0, 5]), ([⟨0, 0, ![1]⟩], [0, 5, 10])] := by
  have h0 : (ids exShort0).filterMap (overviewKey .int exShort0) = [toLex (0, toLex (10, 5)), toLex (0, toLex (5, 5))] := by decide +kernel
  have h1 : (ids exShort0).filter (fun i => overviewKey .int exShort0 i == some (toLex (0, toLex (10, 5)))) = [0] := by decide +kernel
  have h2 : (ids exShort0).filter (fun i => overviewKey .int exShort0 i == some (toLex (0, toLex (5, 5)))) = [3] := by decide +kernel
  have h3 : unique [toLex ((0:Int), toLex ((10:Int), (5:Int))), toLex (0, toLex (5, 5))] = [toLex (0, toLex (5, 5)), toLex (0, toLex (10, 5))] := by decide +kernel
  have g0 : initialStates (exShort0.filter (fun r => r.id == 0)) 1 = .ok [⟨0, 0, ![1]⟩] := by
    unfold initialStates
    rw [if_neg (by decide), if_neg (by decide +kernel)]
    exact build_ok_iff.2 ⟨by simp [exShort0, groupHead], by simp [exShort0, groupHead], (valid_iff _).2 ⟨by decide, by simp [exShort0, groupHead]⟩⟩
  have g3 : initialStates (exShort0.filter (fun r => r.id == 3)) 1 = .ok [⟨3, 0, ![7]⟩] := by
    unfold initialStates
    rw [if_neg (by decide), if_neg (by decide +kernel)]
    exact build_ok_iff.2 ⟨by simp [exShort0, groupHead], by simp [exShort0, groupHead], (valid_iff _).2 ⟨by decide, by simp [exShort0, groupHead]⟩⟩
  have t0 : timeValues (exShort0.filter (fun r => r.id == 0)) = [0, 5, 10] := by decide +kernel
  have t3 : timeValues (exShort0.filter (fun r => r.id == 3)) = [0, 5] := by decide +kernel
  unfold iterReconstruct
  rw [if_neg (by decide +kernel), if_neg (by decide +kernel), h0, h3]
  simp only [List.mapM_cons, List.mapM_nil, h1, h2, List.flatMap_cons, List.flatMap_nil, List.append_nil, Nat.cast_one, g0, g3, t0, t3]
  rfl

/-- One of the series alone. -/
def exOne0 : List (Row Int (Fin 1 → ℝ)) := [⟨0, 10, ![1]⟩, ⟨0, 15, ![1]⟩, ⟨0, 20, ![1]⟩]

/-- The same, starting at time zero. -/
def exOne00 : List (Row Int (Fin 1 → ℝ)) := [⟨0, 0, ![1]⟩, ⟨0, 5, ![1]⟩, ⟨0, 10, ![1]⟩]

theorem exOne0_reconstruct : (reconstructPublic id restReal 1 exOne0).1 = .ok exOne0 := by
  have h1 : (groupHead 1 [] exOne0).map (fun r => -r.time) = [-10] := by decide +kernel
  have h2 : deltaTime .int exOne0 = .one (some 5) := by decide +kernel
  have h3 : nTimesteps exOne0 = .one 3 := by decide +kernel
  have h4 : buildInt .int exOne00 = .ok exOne00 := by
    unfold buildInt
    rw [if_neg (by simp [exOne00])]
    exact build_ok_iff.2 ⟨rfl, by simp [exOne00], (valid_iff _).2 ⟨by decide, by simp [exOne00, Before]⟩⟩
  have h5 : setTimes exOne0 (List.zipWith (fun (r : Row Int (Fin 1 → ℝ)) s => roundTo 5 (r.time + s)) exOne0 (repeatSteps [-10] (.one 3))) = exOne00 := by
    simp [setTimes, exOne0, exOne00, repeatSteps, roundTo, List.replicate_succ]
  have hshift : shiftPerSeries .int exOne0 = (.ok exOne00, exOne00) := by
    unfold shiftPerSeries
    dsimp only
    rw [h1, if_neg (by decide), h2]
    dsimp only
    rw [h3, h5, h4]
  have h6 : (ids exOne00).filterMap (overviewKey .int exOne00) = [toLex (0, toLex (10, 5))] := by decide +kernel
  have h7 : (ids exOne00).filter (fun i => overviewKey .int exOne00 i == some (toLex (0, toLex (10, 5)))) = [0] := by decide +kernel
  have h8 : unique [toLex ((0:Int), toLex ((10:Int), (5:Int)))] = [toLex (0, toLex (10, 5))] := by decide +kernel
  have g : initialStates (exOne00.filter (fun r => r.id == 0)) 1 = .ok [⟨0, 0, ![1]⟩] := by
    unfold initialStates
    rw [if_neg (by decide), if_neg (by decide +kernel)]
    exact build_ok_iff.2 ⟨by simp [exOne00, groupHead], by simp [exOne00, groupHead], (valid_iff _).2 ⟨by decide, by simp [exOne00, groupHead]⟩⟩
  have t : timeValues (exOne00.filter (fun r => r.id == 0)) = [0, 5, 10] := by decide +kernel
  have hgroups : iterReconstruct .int exOne00 1 = .ok [([⟨0, 0, ![1]⟩], [0, 5, 10])] := by
    unfold iterReconstruct
    rw [if_neg (by decide +kernel), if_neg (by decide +kernel), h6, h8]
    simp only [List.mapM_cons, List.mapM_nil, h7, List.flatMap_cons, List.flatMap_nil, List.append_nil, Nat.cast_one, g, t]
    rfl
  have hids : ids ([⟨0, 0, ![1]⟩] : List (Row Int (Fin 1 → ℝ))) = [0] := by decide +kernel
  have hparts : [(([⟨0, 0, ![1]⟩], [0, 5, 10]) : List (Row Int (Fin 1 → ℝ)) × List Int)].mapM (fun g => restReal g.1 g.2) = .ok [exOne00] := by
    simp only [List.mapM_cons, List.mapM_nil, restReal, hids]
    rfl
  unfold reconstructPublic
  rw [if_neg (by decide +kernel)]
  unfold reconstructEdmd
  rw [hshift]
  dsimp only
  rw [hgroups]
  dsimp only
  rw [hparts]
  dsimp only
  rw [if_neg (by decide +kernel)]
  have hb : build (List.zipWith (fun (r : Row Int (Fin 1 → ℝ)) (key : Key Int) => (⟨key.id, key.time, r.val⟩ : Row Int (Fin 1 → ℝ))) [exOne00].flatten (recoveredIndex exOne0 1)) = .ok exOne0 :=
    build_ok_iff.2 ⟨by simp [exOne0, exOne00, recoveredIndex, Row.key], by simp [exOne0, exOne00, recoveredIndex, Row.key], (valid_iff _).2 ⟨by decide, by simp [exOne0, exOne00, recoveredIndex, Row.key, Before]⟩⟩
  rw [hb]

/-- One of the series alone. -/
def exOne3 : List (Row Int (Fin 1 → ℝ)) := [⟨3, 20, ![7]⟩, ⟨3, 25, ![7]⟩]

/-- The same, starting at time zero. -/
def exOne30 : List (Row Int (Fin 1 → ℝ)) := [⟨3, 0, ![7]⟩, ⟨3, 5, ![7]⟩]

theorem exOne3_reconstruct : (reconstructPublic id restReal 1 exOne3).1 = .ok exOne3 := by
  have h1 : (groupHead 1 [] exOne3).map (fun r => -r.time) = [-20] := by decide +kernel
  have h2 : deltaTime .int exOne3 = .one (some 5) := by decide +kernel
  have h3 : nTimesteps exOne3 = .one 2 := by decide +kernel
  have h4 : buildInt .int exOne30 = .ok exOne30 := by
    unfold buildInt
    rw [if_neg (by simp [exOne30])]
    exact build_ok_iff.2 ⟨rfl, by simp [exOne30], (valid_iff _).2 ⟨by decide, by simp [exOne30, Before]⟩⟩
  have h5 : setTimes exOne3 (List.zipWith (fun (r : Row Int (Fin 1 → ℝ)) s => roundTo 5 (r.time + s)) exOne3 (repeatSteps [-20] (.one 2))) = exOne30 := by
    simp [setTimes, exOne3, exOne30, repeatSteps, roundTo, List.replicate_succ]
  have hshift : shiftPerSeries .int exOne3 = (.ok exOne30, exOne30) := by
    unfold shiftPerSeries
    dsimp only
    rw [h1, if_neg (by decide), h2]
    dsimp only
    rw [h3, h5, h4]
  have h6 : (ids exOne30).filterMap (overviewKey .int exOne30) = [toLex (0, toLex (5, 5))] := by decide +kernel
  have h7 : (ids exOne30).filter (fun i => overviewKey .int exOne30 i == some (toLex (0, toLex (5, 5)))) = [3] := by decide +kernel
  have h8 : unique [toLex ((0:Int), toLex ((5:Int), (5:Int)))] = [toLex (0, toLex (5, 5))] := by decide +kernel
  have g : initialStates (exOne30.filter (fun r => r.id == 3)) 1 = .ok [⟨3, 0, ![7]⟩] := by
    unfold initialStates
    rw [if_neg (by decide), if_neg (by decide +kernel)]
    exact build_ok_iff.2 ⟨by simp [exOne30, groupHead], by simp [exOne30, groupHead], (valid_iff _).2 ⟨by decide, by simp [exOne30, groupHead]⟩⟩
  have t : timeValues (exOne30.filter (fun r => r.id == 3)) = [0, 5] := by decide +kernel
  have hgroups : iterReconstruct .int exOne30 1 = .ok [([⟨3, 0, ![7]⟩], [0, 5])] := by
    unfold iterReconstruct
    rw [if_neg (by decide +kernel), if_neg (by decide +kernel), h6, h8]
    simp only [List.mapM_cons, List.mapM_nil, h7, List.flatMap_cons, List.flatMap_nil, List.append_nil, Nat.cast_one, g, t]
    rfl
  have hids : ids ([⟨3, 0, ![7]⟩] : List (Row Int (Fin 1 → ℝ))) = [3] := by decide +kernel
  have hparts : [(([⟨3, 0, ![7]⟩], [0, 5]) : List (Row Int (Fin 1 → ℝ)) × List Int)].mapM (fun g => restReal g.1 g.2) = .ok [exOne30] := by
    simp only [List.mapM_cons, List.mapM_nil, restReal, hids]
    rfl
  unfold reconstructPublic
  rw [if_neg (by decide +kernel)]
  unfold reconstructEdmd
  rw [hshift]
  dsimp only
  rw [hgroups]
  dsimp only
  rw [hparts]
  dsimp only
  rw [if_neg (by decide +kernel)]
  have hb : build (List.zipWith (fun (r : Row Int (Fin 1 → ℝ)) (key : Key Int) => (⟨key.id, key.time, r.val⟩ : Row Int (Fin 1 → ℝ))) [exOne30].flatten (recoveredIndex exOne3 1)) = .ok exOne3 :=
    build_ok_iff.2 ⟨by simp [exOne3, exOne30, recoveredIndex, Row.key], by simp [exOne3, exOne30, recoveredIndex, Row.key], (valid_iff _).2 ⟨by decide, by simp [exOne3, exOne30, recoveredIndex, Row.key, Before]⟩⟩
  rw [hb]

/-- The reconstruction of the collection: the predictions of the second series at the first two time values of the first. -/
def exShortBack : List (Row Int (Fin 1 → ℝ)) := [⟨0, 10, ![7]⟩, ⟨0, 15, ![7]⟩, ⟨0, 20, ![1]⟩, ⟨3, 20, ![1]⟩, ⟨3, 25, ![1]⟩]

theorem exShort_reconstruct : (reconstructPublic id restReal 1 exShort).1 = .ok exShortBack := by
  have hids : ids ([⟨0, 0, ![1]⟩] : List (Row Int (Fin 1 → ℝ))) = [0] := by decide +kernel
  have hids3 : ids ([⟨3, 0, ![7]⟩] : List (Row Int (Fin 1 → ℝ))) = [3] := by decide +kernel
  have hparts : [(([⟨3, 0, ![7]⟩], [0, 5]) : List (Row Int (Fin 1 → ℝ)) × List Int), ([⟨0, 0, ![1]⟩], [0, 5, 10])].mapM (fun g => restReal g.1 g.2) = .ok [exOne30, exOne00] := by
    simp only [List.mapM_cons, List.mapM_nil, restReal, hids, hids3]
    rfl
  unfold reconstructPublic
  rw [if_neg (by decide +kernel)]
  unfold reconstructEdmd
  rw [exShort_shift]
  dsimp only
  rw [exShort_groups]
  dsimp only
  rw [hparts]
  dsimp only
  rw [if_neg (by decide +kernel)]
  have hb : build (List.zipWith (fun (r : Row Int (Fin 1 → ℝ)) (key : Key Int) => (⟨key.id, key.time, r.val⟩ : Row Int (Fin 1 → ℝ))) [exOne30, exOne00].flatten (recoveredIndex exShort 1)) = .ok exShortBack :=
    build_ok_iff.2 ⟨by simp [exOne30, exOne00, exShort, exShortBack, recoveredIndex, Row.key], by simp [exOne30, exOne00, exShort, recoveredIndex, Row.key],
      (valid_iff _).2 ⟨by decide, by simp [exOne30, exOne00, exShort, recoveredIndex, Row.key, Before]⟩⟩
  rw [hb]

/-- **C183 (violated).** A series of three samples and behind it a series of two, both at rest, and the model that predicts just that: the score of the model for each series alone is 0, for both together it is negative (the
predictions are compared with the states of the wrong series). -/
theorem C183_violated : edmdScore id restReal 1 (series exShort 0) = .ok 0 ∧ edmdScore id restReal 1 (series exShort 3) = .ok 0 ∧
    ∃ x, edmdScore id restReal 1 exShort = .ok x ∧ x < 0 := by
  have e0 : series exShort 0 = exOne0 := by simp [series, exShort, exOne0]
  have e3 : series exShort 3 = exOne3 := by simp [series, exShort, exOne3]
  refine ⟨?_, ?_, ?_⟩
  · obtain ⟨x, hx, -, hz⟩ := C183_score (e0 ▸ exShort_valid.sublist List.filter_sublist) exOne0_reconstruct
    rw [e0, hx, hz.2 (fun _ h => h)]
  · obtain ⟨x, hx, -, hz⟩ := C183_score (e3 ▸ exShort_valid.sublist List.filter_sublist) exOne3_reconstruct
    rw [e3, hx, hz.2 (fun _ h => h)]
  · obtain ⟨x, hx, h0, hz⟩ := C183_score exShort_valid exShort_reconstruct
    refine ⟨x, hx, lt_of_le_of_ne h0 (fun h => ?_)⟩
    have := hz.1 h ⟨0, 10, ![7]⟩ (by simp [exShortBack])
    simp [exShort] at this

theorem exOne0_valid : Valid exOne0 := (valid_iff _).2 ⟨by decide, by simp [exOne0, Before]⟩

theorem exOne0_hasId {i : Nat} (h : HasId exOne0 i) : i = 0 := by
  obtain ⟨r, hr, rfl⟩ := h
  simp only [exOne0, List.mem_cons, List.not_mem_nil, or_false] at hr
  rcases hr with rfl | rfl | rfl <;> rfl

/-- `C183_exact_partial` at work: the conditions hold for the series of three samples at rest and the model that predicts this. -/
example : ∃ x, edmdScore id restReal 1 exOne0 = .ok x ∧ x ≤ 0 ∧ (x = 0 ↔ ∀ i, HasId exOne0 i → ∀ p ∈ (content exOne0 i).drop (1 - 1), (fun _ _ => ![1] : Nat → Int → Fin 1 → ℝ) i (p.1 - firstTime exOne0 i) = p.2) := by
  refine C183_exact_partial (liftE := id) (predict := restReal) (n := 1) (f := fun _ _ => ![1]) (d := 5) (by decide) (by simp [exOne0]) exOne0_valid (by unfold IdsAscending; decide) ?_ ?_ ?_ ?_
  · intro i hi
    obtain rfl := exOne0_hasId hi
    unfold Regular
    decide +kernel
  · intro i hi
    obtain rfl := exOne0_hasId hi
    decide +kernel
  · intro i j hi hj h
    obtain rfl := exOne0_hasId hi
    obtain rfl := exOne0_hasId hj
    exact absurd h (by decide)
  · intro ic times hne hv _ _ h
    have hid : ∀ r ∈ ic, r.id = 0 := fun r hr => exOne0_hasId (h r.id ⟨r, hr, rfl⟩).1
    obtain ⟨r0, hr0⟩ := List.exists_mem_of_ne_nil ic hne
    obtain ⟨-, hcont, ht⟩ := h 0 ⟨r0, hr0, hid r0 hr0⟩
    have hser : series ic 0 = ic := List.filter_eq_self.2 (fun r hr => by simp [hid r hr])
    have hft : firstTime exOne0 0 = 10 := by decide +kernel
    have hic : ic = [⟨0, 0, ![1]⟩] := by
      have h1 : content ic 0 = [(0, ![1])] := by rw [hcont, hft]; simp [content, series, exOne0]
      have h2 : ic = (content ic 0).map (fun p => ⟨0, p.1, p.2⟩) := by
        unfold content
        rw [hser, List.map_map]
        conv_lhs => rw [← List.map_id ic]
        apply List.map_congr_left
        intro r hr
        have := hid r hr
        cases r
        simp_all
      rw [h2, h1]; rfl
    have htimes : times = [0, 5, 10] := by rw [ht, hft]; decide +kernel
    subst hic htimes
    have hids : ids ([⟨0, 0, ![1]⟩] : List (Row Int (Fin 1 → ℝ))) = [0] := by decide +kernel
    refine ⟨exOne00, ?_, (valid_iff _).2 ⟨by decide, by simp [exOne00, Before]⟩, by unfold IdsAscending; decide, ?_, ?_⟩
    · simp only [restReal, hids]
      rfl
    · intro i
      simp [HasId, exOne00]
    · rintro i ⟨r, hr, rfl⟩
      simp only [List.mem_cons, List.not_mem_nil, or_false] at hr
      subst hr
      simp [content, series, exOne00]

/-- **C184 (slices).** A pipeline of at least one transformer and a final model. `edmd[a:b]` without the final model and with at least one step is the plain pipeline of exactly these steps in order, and the full slice is
the model itself (left out bounds are the beginning and the end). Every other slice raises: a `ValueError` if it contains the final model (or has a step other than 1), an `IndexError` if it is empty. -/
theorem C184_slice (trans : List Step) (last : Step) (ht : ∀ s ∈ trans, s.predicts = false) (hl : last.predicts = true) (start stop : Option Nat) {a b : Nat} (ha : a = start.getD 0)
    (hb : b = stop.getD (trans.length + 1)) {step : Option Int} (hstep : step = none ∨ step = some 1) :
    edmdSlice (trans ++ [last]) start stop step =
      if b ≤ trans.length then (if a < b then .ok (.pipeline ((trans.take b).drop a)) else .error .indexError)
      else if a = 0 then .ok .self
      else if a ≤ trans.length then .error .valueError else .error .indexError := by
  unfold edmdSlice sliceSteps
  rw [if_neg (by rcases hstep with rfl | rfl <;> simp)]
  have hlen : (trans ++ [last]).length = trans.length + 1 := by simp
  dsimp only
  rw [hlen, ← ha, ← hb]
  clear ha hb
  simp only [List.length_append, List.length_cons, List.length_nil, List.length_drop, List.length_take]
  by_cases hb : b ≤ trans.length
  · rw [if_pos hb, List.take_append_of_le_length hb, if_neg (by omega)]
    by_cases hab : a < b
    · rw [if_pos hab]
      have hne : (trans.take b).drop a ≠ [] := by
        rw [Ne, List.drop_eq_nil_iff, List.length_take]; omega
      rw [List.getLast?_eq_some_getLast hne]
      dsimp only
      rw [ht _ (List.mem_of_mem_take (List.mem_of_mem_drop (List.getLast_mem hne)))]
      rfl
    · rw [if_neg hab, List.drop_eq_nil_of_le (by rw [List.length_take]; omega)]
      rfl
  · rw [if_neg hb, List.take_of_length_le (by simp; omega)]
    by_cases ha : a = 0
    · rw [if_pos ha, if_pos (by omega)]
    · rw [if_neg ha, if_neg (by omega)]
      by_cases hal : a ≤ trans.length
      · rw [if_pos hal, List.drop_append_of_le_length hal, List.getLast?_append]
        simp [hl]
      · rw [if_neg hal, List.drop_eq_nil_of_le (by simp; omega)]
        rfl

/-- **C184 (steps).** A slice with another step raises a `ValueError`. -/
theorem C184_step (steps : List Step) (start stop : Option Nat) {k : Int} (h : k ≠ 1) : edmdSlice steps start stop (some k) = .error .valueError := by
  unfold edmdSlice
  rw [if_pos ⟨by simp, by simpa using h⟩]

example : edmdSlice [⟨"delay", false⟩, ⟨"pca", false⟩, ⟨"dmd", true⟩] none (some 2) none = .ok (.pipeline [⟨"delay", false⟩, ⟨"pca", false⟩]) ∧
    edmdSlice [⟨"delay", false⟩, ⟨"pca", false⟩, ⟨"dmd", true⟩] (some 1) none none = .error .valueError := by
  decide

end Verif.Edmd
