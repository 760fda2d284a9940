import Verif.Transform.SeriesProps
import Verif.Tsc.TimeOpsProps
import Verif.Tsc.InitCond
import Verif.Dmd.NoiseProps
import Verif.Dyn.Linear
/-!
# C228: the origin of time does not matter

`movedTime s c` (`Verif.Tsc.TimeOpsProps`) is the collection with all time values moved by `s`.  Moving the data moves the results.
-/

namespace Verif.Dmd

open Verif.Tsc Verif.Np Verif.Lin Verif.Dyn Verif.Takens Verif.Transform Matrix

section lemmas

variable {V W : Type}

theorem movedTime_back (s : Int) (c : List (Row Int V)) : movedTime (-s) (movedTime s c) = c := by
  unfold movedTime
  rw [List.map_map]
  conv_rhs => rw [← List.map_id c]
  refine List.map_congr_left (fun r _ => ?_)
  simp

theorem movedTime_ids_col (s : Int) (c : List (Row Int V)) : (movedTime s c).map (·.id) = c.map (·.id) := by
  unfold movedTime
  rw [List.map_map]
  rfl

theorem movedTime_val_col (s : Int) (c : List (Row Int V)) : (movedTime s c).map (·.val) = c.map (·.val) := by
  unfold movedTime
  rw [List.map_map]
  rfl

theorem movedTime_time_col (s : Int) (c : List (Row Int V)) : (movedTime s c).map (·.time) = (c.map (·.time)).map (· + s) := by
  unfold movedTime
  rw [List.map_map, List.map_map]
  rfl

theorem movedTime_length (s : Int) (c : List (Row Int V)) : (movedTime s c).length = c.length := by
  unfold movedTime
  rw [List.length_map]

theorem movedTime_ne_nil {s : Int} {c : List (Row Int V)} (h : c ≠ []) : movedTime s c ≠ [] := by
  unfold movedTime
  simpa using h

theorem ids_movedTime (s : Int) (c : List (Row Int V)) : ids (movedTime s c) = ids c := by
  unfold ids
  rw [movedTime_ids_col]

theorem nTimeseries_movedTime (s : Int) (c : List (Row Int V)) : nTimeseries (movedTime s c) = nTimeseries c := by
  unfold nTimeseries
  rw [ids_movedTime]

theorem counts_movedTime (s : Int) (c : List (Row Int V)) : counts (movedTime s c) = counts c := by
  unfold counts
  rw [movedTime_ids_col, ids_movedTime]

theorem nTimesteps_movedTime (s : Int) (c : List (Row Int V)) : nTimesteps (movedTime s c) = nTimesteps c := by
  unfold nTimesteps
  rw [counts_movedTime, ids_movedTime, nTimeseries_movedTime]

theorem checkMin_movedTime (s : Int) (c : List (Row Int V)) (n : Int) : checkMinTimesteps (movedTime s c) n = checkMinTimesteps c n := by
  unfold checkMinTimesteps
  rw [nTimesteps_movedTime]

theorem unique_map_mono {α β : Type} [LinearOrder α] [LinearOrder β] {g : α → β} (hg : StrictMono g) (l : List α) : unique (l.map g) = (unique l).map g := by
  refine eq_of_pairwise_lt (unique_pairwise _) ?_ (fun b => ?_)
  · rw [List.pairwise_map]
    exact (unique_pairwise l).imp (fun h => hg h)
  · rw [mem_unique, List.mem_map, List.mem_map]
    simp only [mem_unique]

theorem add_mono (s : Int) : StrictMono (fun t : Int => t + s) := fun a b h => by
  simp only
  omega

theorem timeValues_movedTime (s : Int) (c : List (Row Int V)) : timeValues (movedTime s c) = (timeValues c).map (· + s) := by
  unfold timeValues
  rw [movedTime_time_col, unique_map_mono (add_mono s)]

theorem sameTimes_movedTime (s : Int) (c : List (Row Int V)) : isSameTimeValues (movedTime s c) = isSameTimeValues c := by
  unfold isSameTimeValues
  rw [nTimeseries_movedTime, nTimesteps_movedTime, timeValues_movedTime, List.length_map]

theorem build_movedTime (s : Int) {c d : List (Row Int V)} (h : build c = .ok d) : build (movedTime s c) = .ok (movedTime s d) := by
  obtain ⟨rfl, h1, h2⟩ := build_ok_iff.1 h
  exact build_ok_of_valid (movedTime_valid h2 s) (movedTime_ne_nil h1)

theorem npDiff_add (s : Int) (l : List Int) : npDiff (l.map (· + s)) = npDiff l := by
  unfold npDiff
  rw [← List.map_tail, List.zipWith_map]
  congr 1
  funext a b
  omega

theorem deltaList_movedTime (s : Int) (c : List (Row Int V)) : deltaList (movedTime s c) = deltaList c := by
  unfold deltaList deltaEqualLength deltaUnequalLength
  rw [nTimesteps_movedTime, ids_movedTime, nTimeseries_movedTime, movedTime_time_col, npDiff_add, movedTime_ids_col]

theorem deltaTime_movedTime (k : TimeKind) (s : Int) (c : List (Row Int V)) : deltaTime k (movedTime s c) = deltaTime k c := by
  unfold deltaTime
  rw [deltaList_movedTime, ids_movedTime, nTimeseries_movedTime]

theorem constDelta_movedTime (k : TimeKind) (s : Int) (c : List (Row Int V)) : isConstDeltaTime k (movedTime s c) = isConstDeltaTime k c := by
  unfold isConstDeltaTime
  rw [deltaTime_movedTime]

theorem groupHead_movedTime (s : Int) (n : Nat) (c : List (Row Int V)) : ∀ seen, groupHead n seen (movedTime s c) = movedTime s (groupHead n seen c) := by
  induction c with
  | nil => intro _; rfl
  | cons r c ih =>
    intro seen
    have e1 : ∀ (r : Row Int V) l, groupHead n seen (r :: l) = if seen.count r.id < n then r :: groupHead n (r.id :: seen) l else groupHead n (r.id :: seen) l := fun _ _ => rfl
    have e2 : movedTime s (r :: c) = ⟨r.id, r.time + s, r.val⟩ :: movedTime s c := rfl
    rw [e2, e1, e1, ih]
    split <;> rfl

theorem groupTail_movedTime (s : Int) (n : Nat) (c : List (Row Int V)) : groupTail n (movedTime s c) = movedTime s (groupTail n c) := by
  induction c with
  | nil => rfl
  | cons r c ih =>
    have e1 : ∀ (r : Row Int V) l, groupTail n (r :: l) = if (l.map (·.id)).count r.id < n then r :: groupTail n l else groupTail n l := fun _ _ => rfl
    have e2 : movedTime s (r :: c) = ⟨r.id, r.time + s, r.val⟩ :: movedTime s c := rfl
    rw [e2, e1, e1, ih, movedTime_ids_col]
    split <;> rfl

theorem filterId_movedTime (s : Int) (c : List (Row Int V)) (i : Nat) : (movedTime s c).filter (fun r => r.id == i) = movedTime s (c.filter (fun r => r.id == i)) := by
  unfold movedTime
  rw [List.filter_map]
  rfl

theorem initial_movedTime (s : Int) {c d : List (Row Int V)} {n : Int} (h : initialStates c n = .ok d) : initialStates (movedTime s c) n = .ok (movedTime s d) := by
  unfold initialStates at h ⊢
  rw [checkMin_movedTime, groupHead_movedTime]
  split_ifs at h ⊢
  exact build_movedTime s h

theorem final_movedTime (s : Int) {c d : List (Row Int V)} {n : Int} (h : finalStates c n = .ok d) : finalStates (movedTime s c) n = .ok (movedTime s d) := by
  unfold finalStates at h ⊢
  rw [checkMin_movedTime, groupTail_movedTime]
  split_ifs at h ⊢
  exact build_movedTime s h

theorem dropLast_movedTime (s : Int) {c d : List (Row Int V)} {n : Nat} (h : dropLastN c n = .ok d) : dropLastN (movedTime s c) n = .ok (movedTime s d) := by
  unfold dropLastN at h ⊢
  rw [checkMin_movedTime, groupTail_movedTime]
  have e : dropKeys (movedTime s c) ((movedTime s (groupTail n c)).map (·.key)) = movedTime s (dropKeys c ((groupTail n c).map (·.key))) := by
    unfold dropKeys movedTime
    rw [List.filter_map, List.map_map]
    congr 1
    refine List.filter_congr (fun r _ => ?_)
    simp only [Function.comp]
    congr 1
    rw [Bool.eq_iff_iff, List.contains_iff_mem, List.contains_iff_mem, List.mem_map, List.mem_map]
    refine exists_congr (fun q => and_congr_right (fun _ => ?_))
    simp [Row.key]
  rw [e]
  split_ifs at h ⊢
  exact build_movedTime s h

theorem shiftMatrices_movedTime (s : Int) (c : List (Row Int V)) : shiftMatrices (movedTime s c) = shiftMatrices c := by
  unfold shiftMatrices shiftRows
  rw [checkMin_movedTime, nTimeseries_movedTime, nTimesteps_movedTime, movedTime_val_col]

theorem foldl_min_add (s : Int) (l : List Int) : ∀ a, (l.map (· + s)).foldl min (a + s) = l.foldl min a + s := by
  induction l with
  | nil => intro _; rfl
  | cons b l ih =>
    intro a
    rw [List.map_cons, List.foldl_cons, List.foldl_cons, ← ih]
    congr 1
    omega

theorem min?_add (s : Int) (l : List Int) : (l.map (· + s)).min? = l.min?.map (· + s) := by
  cases l with
  | nil => rfl
  | cons a l =>
    rw [List.map_cons, List.min?_cons', List.min?_cons', foldl_min_add]
    rfl

theorem evolve_movedTime (s : Int) {X : List (Row Int V)} {times : List Int} {solve : List V → List Int → List (List W)} {r : List (Row Int W)} (h : evolveFrame X times solve = .ok r) :
    evolveFrame (movedTime s X) (times.map (· + s)) solve = .ok (movedTime s r) := by
  unfold evolveFrame at h ⊢
  rw [movedTime_ids_col, movedTime_val_col, min?_add, List.length_map]
  simp only at h ⊢
  split_ifs at h ⊢ with h1
  cases hm : times.min? with
  | none => rw [hm] at h; exact nomatch h
  | some a =>
    rw [hm] at h
    simp only [Option.map_some] at h ⊢
    have e : (times.map (· + s)).map (· - (a + s)) = times.map (· - a) := by
      rw [List.map_map]
      refine List.map_congr_left (fun t _ => ?_)
      simp only [Function.comp]
      omega
    rw [e]
    cases hf : fromTensor times.length (solve (X.map (·.val)) (times.map (· - a))) (some (X.map (·.id))) (times.map (· - a)) with
    | error e => rw [hf] at h; exact nomatch h
    | ok c =>
      rw [hf] at h
      simp only at h ⊢
      by_cases h2 : (timeValues c).map (· + a) = times
      · rw [if_neg (not_not.2 h2)] at h
        have h3 : (timeValues c).map (· + (a + s)) = times.map (· + s) := by
          rw [← h2, List.map_map]
          refine List.map_congr_left (fun t _ => ?_)
          simp only [Function.comp]
          omega
        rw [if_neg (not_not.2 h3)]
        have h4 : setTimeLevels c (times.map (· + s)) = movedTime s (setTimeLevels c times) := by
          unfold setTimeLevels movedTime
          rw [List.map_map]
          refine List.map_congr_left (fun r hr => ?_)
          simp only [Function.comp]
          congr 1
          have hlt : (timeValues c).idxOf r.time < times.length := by
            rw [← h2, List.length_map]
            refine List.idxOf_lt_length_iff.2 ?_
            unfold timeValues
            rw [mem_unique]
            exact List.mem_map_of_mem hr
          rw [List.getD_eq_getElem?_getD, List.getD_eq_getElem?_getD, List.getElem?_map, List.getElem?_eq_getElem hlt]
          rfl
        rw [h4]
        cases hb : build (setTimeLevels c times) with
        | error e => rw [hb] at h; exact nomatch h
        | ok d =>
          rw [hb] at h
          injection h with h
          subst h
          rw [build_movedTime s hb]
      · rw [if_pos h2] at h
        exact nomatch h

/-- The effect of the shift on the sort key of `iter_reconstruct_ic`. -/
def keyAdd (s : Int) (x : TimeKey) : TimeKey := toLex ((ofLex x).1 + s, toLex ((ofLex (ofLex x).2).1 + s, (ofLex (ofLex x).2).2))

theorem keyAdd_mono (s : Int) : StrictMono (keyAdd s) := by
  intro x y h
  rw [Prod.Lex.lt_iff] at h
  unfold keyAdd
  rw [Prod.Lex.lt_iff]
  rcases h with h | ⟨h1, h2⟩
  · left
    simp only [ofLex_toLex]
    omega
  · right
    rw [Prod.Lex.lt_iff] at h2
    simp only [ofLex_toLex]
    refine ⟨by omega, ?_⟩
    rw [Prod.Lex.lt_iff]
    simp only [ofLex_toLex]
    rcases h2 with h2 | ⟨h2, h3⟩
    · left; omega
    · right; exact ⟨by omega, h3⟩

theorem timeInterval_movedTime (s : Int) {c : List (Row Int V)} {i : Nat} (hi : i ∈ ids c) : timeInterval (movedTime s c) i = ((timeInterval c i).1 + s, (timeInterval c i).2 + s) := by
  unfold timeInterval
  rw [filterId_movedTime, movedTime_time_col, unique_map_mono (add_mono s)]
  simp only
  have hne : unique ((c.filter (fun r => r.id == i)).map (·.time)) ≠ [] := by
    obtain ⟨r, hr, rfl⟩ := (mem_ids).1 hi
    have : r.time ∈ unique ((c.filter (fun q => q.id == r.id)).map (·.time)) := by
      rw [mem_unique]
      exact List.mem_map_of_mem (List.mem_filter.2 ⟨hr, by simp⟩)
    exact List.ne_nil_of_mem this
  generalize unique ((c.filter (fun r => r.id == i)).map (·.time)) = l at hne
  cases l with
  | nil => exact absurd rfl hne
  | cons a l =>
    congr 1
    simp only [List.getLastD_eq_getLast?, List.getLast?_map, List.getLast?_cons, Option.map_some, Option.getD_some]

theorem overviewKey_movedTime (k : TimeKind) (s : Int) {c : List (Row Int V)} {i : Nat} (hi : i ∈ ids c) : overviewKey k (movedTime s c) i = (overviewKey k c i).map (keyAdd s) := by
  unfold overviewKey deltaOf
  rw [deltaTime_movedTime, timeInterval_movedTime s hi, Option.map_map]
  rfl

theorem mapM_map_ok {α β γ δ E : Type} {f : α → Except E β} {f' : γ → Except E δ} {g : α → γ} {h : β → δ} (l : List α) :
    (∀ a ∈ l, ∀ b, f a = .ok b → f' (g a) = .ok (h b)) → ∀ bs, l.mapM f = .ok bs → (l.map g).mapM f' = .ok (bs.map h) := by
  induction l with
  | nil =>
    intro _ bs hb
    cases hb
    rfl
  | cons a l ih =>
    intro H bs hb
    rw [List.mapM_cons] at hb
    rw [List.map_cons, List.mapM_cons]
    cases h1 : f a with
    | error e => rw [h1] at hb; exact nomatch hb
    | ok b =>
      cases h2 : l.mapM f with
      | error e => rw [h1, h2] at hb; exact nomatch hb
      | ok bs' =>
        rw [h1, h2] at hb
        cases hb
        rw [H a (by simp) b h1, ih (fun a ha => H a (by simp [ha])) bs' h2]
        rfl

/-- The effect of the shift on a pair of initial states and time values. -/
def groupAdd (s : Int) (g : List (Row Int V) × List Int) : List (Row Int V) × List Int := (movedTime s g.1, g.2.map (· + s))

theorem movedTime_flatMap {α : Type} (s : Int) (l : List α) (f : α → List (Row Int V)) : l.flatMap (fun a => movedTime s (f a)) = movedTime s (l.flatMap f) := by
  unfold movedTime
  rw [List.map_flatMap]

theorem iterReconstruct_movedTime (k : TimeKind) (s : Int) {c : List (Row Int V)} {n : Nat} {gs : List (List (Row Int V) × List Int)} (h : iterReconstruct k c n = .ok gs) :
    iterReconstruct k (movedTime s c) n = .ok (gs.map (groupAdd s)) := by
  unfold iterReconstruct at h ⊢
  rw [checkMin_movedTime, ids_movedTime]
  have e1 : (ids c).any (fun i => (overviewKey k (movedTime s c) i).isNone) = (ids c).any (fun i => (overviewKey k c i).isNone) := by
    rw [Bool.eq_iff_iff, List.any_eq_true, List.any_eq_true]
    refine exists_congr (fun i => and_congr_right (fun hi => ?_))
    rw [overviewKey_movedTime k s hi, Option.isNone_map]
  have e2 : (ids c).filterMap (overviewKey k (movedTime s c)) = ((ids c).filterMap (overviewKey k c)).map (keyAdd s) := by
    rw [List.map_filterMap]
    exact List.filterMap_congr (fun i hi => overviewKey_movedTime k s hi)
  rw [e1, e2, unique_map_mono (keyAdd_mono s)]
  split_ifs at h ⊢ with h1 h2
  refine mapM_map_ok _ ?_ gs h
  intro key _ b hb
  have e3 : (ids c).filter (fun i => overviewKey k (movedTime s c) i == some (keyAdd s key)) = (ids c).filter (fun i => overviewKey k c i == some key) := by
    refine List.filter_congr (fun i hi => ?_)
    rw [overviewKey_movedTime k s hi, Bool.eq_iff_iff, beq_iff_eq, beq_iff_eq]
    cases overviewKey k c i with
    | none => simp
    | some x => simp [(keyAdd_mono s).injective.eq_iff]
  simp only at hb ⊢
  rw [e3]
  simp only [filterId_movedTime]
  rw [movedTime_flatMap]
  generalize ((ids c).filter (fun i => overviewKey k c i == some key)).flatMap (fun i => c.filter (fun r => r.id == i)) = tsc at hb ⊢
  cases hi : initialStates tsc n with
  | error e => rw [hi] at hb; exact nomatch hb
  | ok ic =>
    rw [hi] at hb
    cases hb
    rw [initial_movedTime s hi, timeValues_movedTime]
    simp only [groupAdd, List.map_drop]

theorem reconstruct_movedTime {E : Type} {lift : TscErr → E} {predict : List (Row Int V) → List Int → Except E (List (Row Int W))} (s : Int)
    (hp : ∀ X times r, predict X times = .ok r → predict (movedTime s X) (times.map (· + s)) = .ok (movedTime s r)) (k : TimeKind) {c : List (Row Int V)} {r : List (Row Int W)}
    (h : reconstructWith lift predict k c = .ok r) : reconstructWith lift predict k (movedTime s c) = .ok (movedTime s r) := by
  unfold reconstructWith at h ⊢
  cases h1 : iterReconstruct k c 1 with
  | error e => rw [h1] at h; exact nomatch h
  | ok gs =>
    rw [h1] at h
    rw [iterReconstruct_movedTime k s h1]
    simp only at h ⊢
    cases h2 : gs.mapM (fun g => predict g.1 g.2) with
    | error e => rw [h2] at h; exact nomatch h
    | ok parts =>
      rw [h2] at h
      rw [mapM_map_ok gs (f' := fun g : List (Row Int V) × List Int => predict g.1 g.2) (g := groupAdd s) (h := movedTime s) (fun g _ b hb => hp _ _ _ hb) parts h2]
      simp only at h ⊢
      cases h3 : build parts.flatten with
      | error e => rw [h3] at h; exact nomatch h
      | ok d =>
        rw [h3] at h
        cases h
        have e : (parts.map (movedTime s)).flatten = movedTime s parts.flatten := by
          unfold movedTime
          rw [List.map_flatten]
        rw [e, build_movedTime s h3]

theorem iff_movedTime {E : Type} {f : List (Row Int V) → Except E (List (Row Int W))} (h : ∀ (s : Int) c d, f c = .ok d → f (movedTime s c) = .ok (movedTime s d)) (s : Int)
    (c : List (Row Int V)) (d : List (Row Int W)) : f (movedTime s c) = .ok (movedTime s d) ↔ f c = .ok d := by
  refine ⟨fun e => ?_, h s c d⟩
  have := h (-s) _ _ e
  rwa [movedTime_back, movedTime_back] at this

theorem add_back (s : Int) (l : List Int) : (l.map (· + s)).map (· + -s) = l := by
  rw [List.map_map]
  conv_rhs => rw [← List.map_id l]
  exact List.map_congr_left (fun t _ => by simp)

theorem itertimeseries_movedTime (s : Int) (c : List (Row Int V)) : itertimeseries (movedTime s c) = (itertimeseries c).map (fun p => (p.1, p.2.map (fun q => (q.1 + s, q.2)))) := by
  unfold itertimeseries
  rw [ids_movedTime, List.map_map]
  refine List.map_congr_left (fun i _ => ?_)
  rw [filterId_movedTime]
  unfold movedTime
  simp [Function.comp_def]

end lemmas

variable {V : Type} {ι κ : Type} [Fintype ι] [Fintype κ]

/-- C228 for `shift_time_by_delta`: what it returns is the collection with all time values moved. -/
theorem C228_shift {c c' : List (Row Int V)} (hc : c ≠ []) (hv : Valid c) {k : TimeKind} (hk : k = .int → ∀ r ∈ c, 0 ≤ r.time) {s : Int} (h : (shiftTime k c s).1 = .ok c') :
    c' = movedTime s c ∧ Valid c' :=
  let g := (C119_shift_partial hc hv k hk s).2 c' h
  ⟨g.1, g.2.1⟩

/-- C228 for `initial_states`, `final_states` and `drop_last_n_samples`. -/
theorem C228_states (s : Int) (c d : List (Row Int V)) :
    (∀ n, initialStates (movedTime s c) n = .ok (movedTime s d) ↔ initialStates c n = .ok d) ∧
    (∀ n, finalStates (movedTime s c) n = .ok (movedTime s d) ↔ finalStates c n = .ok d) ∧
    ∀ n, dropLastN (movedTime s c) n = .ok (movedTime s d) ↔ dropLastN c n = .ok d :=
  ⟨fun n => iff_movedTime (f := fun c => initialStates c n) (fun s _ _ h => initial_movedTime s h) s c d,
    fun n => iff_movedTime (f := fun c => finalStates c n) (fun s _ _ h => final_movedTime s h) s c d,
    fun n => iff_movedTime (f := fun c => dropLastN c n) (fun s _ _ h => dropLast_movedTime s h) s c d⟩

/-- C228 for what a collection tells about its sampling, and for the snapshot pairs. -/
theorem C228_sampling (k : TimeKind) (s : Int) (c : List (Row Int V)) :
    deltaTime k (movedTime s c) = deltaTime k c ∧ isConstDeltaTime k (movedTime s c) = isConstDeltaTime k c ∧ isSameTimeValues (movedTime s c) = isSameTimeValues c ∧
      nTimesteps (movedTime s c) = nTimesteps c ∧ shiftMatrices (movedTime s c) = shiftMatrices c ∧ timeValues (movedTime s c) = (timeValues c).map (· + s) :=
  ⟨deltaTime_movedTime k s c, constDelta_movedTime k s c, sameTimes_movedTime s c, nTimesteps_movedTime s c, shiftMatrices_movedTime s c, timeValues_movedTime s c⟩

/-- C228 for the fit of `DMDStandard` with and without sample weights. -/
theorem C228_fit (k : TimeKind) (s : Int) (c : List (Row Int (ι → ℝ))) (w : Option (List ℝ)) (K : Matrix ι ι ℝ) : Fits k (movedTime s c) w K ↔ Fits k c w K := by
  unfold Fits
  rw [constDelta_movedTime, shiftMatrices_movedTime, movedTime_length]

omit [Fintype ι] [Fintype κ] in
theorem controlIndex_movedTime (s : Int) {c : List (Row Int (ι → ℝ))} {u : List (Row Int (κ → ℝ))} (h : controlIndexMatches c u) : controlIndexMatches (movedTime s c) (movedTime s u) := by
  obtain ⟨d, h1, h2⟩ := h
  refine ⟨_, dropLast_movedTime s h1, ?_⟩
  have e : ∀ {V : Type} (c : List (Row Int V)), (movedTime s c).map (·.key) = (c.map (·.key)).map (fun k => ⟨k.id, k.time + s⟩) := fun c => by
    unfold movedTime
    rw [List.map_map, List.map_map]
    rfl
  rw [e, e, h2]

/-- C228 for the fit of `DMDControl`: states and controls are moved together. -/
theorem C228_fit_control (k : TimeKind) (s : Int) (c : List (Row Int (ι → ℝ))) (u : List (Row Int (κ → ℝ))) (A : Matrix ι ι ℝ) (B : Matrix ι κ ℝ) :
    FitsControl k (movedTime s c) (movedTime s u) A B ↔ FitsControl k c u A B := by
  unfold FitsControl
  rw [constDelta_movedTime, shiftMatrices_movedTime, movedTime_length, movedTime_val_col]
  have : controlIndexMatches (movedTime s c) (movedTime s u) ↔ controlIndexMatches c u := by
    refine ⟨fun h => ?_, controlIndex_movedTime s⟩
    have := controlIndex_movedTime (-s) h
    rwa [movedTime_back, movedTime_back] at this
  rw [this]

/-- C228 for `predict`: initial conditions and time values are moved together. -/
theorem C228_predict [DecidableEq ι] (s : Int) (A : Matrix ι ι ℝ) (dt : Int) (X : List (Row Int (ι → ℝ))) (times : List Int) (r : List (Row Int (ι → ℝ))) :
    predictMatrix A dt (movedTime s X) (times.map (· + s)) = .ok (movedTime s r) ↔ predictMatrix A dt X times = .ok r := by
  refine ⟨fun h => ?_, fun h => evolve_movedTime s h⟩
  have := evolve_movedTime (-s) h
  rwa [movedTime_back, movedTime_back, add_back] at this

omit [Fintype ι] [Fintype κ] in
theorem validateControl_movedTime (s : Int) (X : List (Row Int (ι → ℝ))) (U : List (Row Int (κ → ℝ))) : validateControl (movedTime s X) (movedTime s U) = validateControl X U := by
  unfold validateControl
  rw [movedTime_ids_col, ids_movedTime, sameTimes_movedTime, movedTime_time_col, timeValues_movedTime, List.any_map, List.head?_map]
  have : ((fun t => Option.map (· + s) (timeValues U).head? != some t) ∘ fun x => x + s) = fun t => (timeValues U).head? != some t := by
    funext t
    cases (timeValues U).head? with
    | none => rfl
    | some a =>
      rw [Bool.eq_iff_iff]
      simp [bne_iff_ne]
  rw [this]

theorem predictControlled_movedTime [DecidableEq ι] (s : Int) {A : Matrix ι ι ℝ} {B : Matrix ι κ ℝ} {X : List (Row Int (ι → ℝ))} {U : List (Row Int (κ → ℝ))} {times : List Int} {r : List (Row Int (ι → ℝ))}
    (h : predictControlled A B X U times = .ok r) : predictControlled A B (movedTime s X) (movedTime s U) (times.map (· + s)) = .ok (movedTime s r) := by
  unfold predictControlled at h ⊢
  rw [validateControl_movedTime, movedTime_val_col, ids_movedTime, List.length_map]
  cases hv : validateControl X U with
  | error e => rw [hv] at h; exact nomatch h
  | ok _ =>
    rw [hv] at h
    simp only at h ⊢
    rw [movedTime_length]
    split_ifs at h ⊢
    exact evolve_movedTime s h

/-- C228 for `predict` with control input. -/
theorem C228_predict_control [DecidableEq ι] (s : Int) (A : Matrix ι ι ℝ) (B : Matrix ι κ ℝ) (X : List (Row Int (ι → ℝ))) (U : List (Row Int (κ → ℝ))) (times : List Int) (r : List (Row Int (ι → ℝ))) :
    predictControlled A B (movedTime s X) (movedTime s U) (times.map (· + s)) = .ok (movedTime s r) ↔ predictControlled A B X U times = .ok r := by
  refine ⟨fun h => ?_, predictControlled_movedTime s⟩
  have := predictControlled_movedTime (-s) h
  rwa [movedTime_back, movedTime_back, movedTime_back, add_back] at this

/-- C228 for `reconstruct`. -/
theorem C228_reconstruct [DecidableEq ι] (k : TimeKind) (s : Int) (A : Matrix ι ι ℝ) (dt : Int) (c r : List (Row Int (ι → ℝ))) :
    reconstructWith PredErr.tsc (predictMatrix A dt) k (movedTime s c) = .ok (movedTime s r) ↔ reconstructWith PredErr.tsc (predictMatrix A dt) k c = .ok r :=
  iff_movedTime (fun s _ _ h => reconstruct_movedTime s (fun _ _ _ hp => evolve_movedTime s hp) k h) s c r

section transformers

variable {α : Type}

theorem takensSeries_movedTime [Mul α] (s : Int) (ds : List Nat) (kv : Option (List α)) (l : List (Row Int (List α))) : takensSeries ds kv (movedTime s l) = movedTime s (takensSeries ds kv l) := by
  unfold takensSeries
  rw [movedTime_val_col]
  simp only
  unfold movedTime
  rw [← List.map_drop, List.zipWith_map_left, List.map_zipWith]

theorem takens_movedTime [Mul α] (s : Int) (f : Fitted) (w : Option (Nat → α)) (k : TimeKind) {X Y : Frame α} (h : Takens.transform f w k X = .ok Y) :
    Takens.transform f w k ⟨X.cols, movedTime s X.rows⟩ = .ok ⟨Y.cols, movedTime s Y.rows⟩ := by
  rw [Takens.transform_eq] at h ⊢
  obtain ⟨h1, h2, h3, h4, h5, h6⟩ := h
  refine ⟨by rw [deltaTime_movedTime, h1], by rw [checkMin_movedTime, h2], h3, h4, ?_, h6⟩
  have e : outRows f w ⟨X.cols, movedTime s X.rows⟩ = movedTime s (outRows f w X) := by
    unfold outRows
    rw [ids_movedTime, ← movedTime_flatMap]
    refine List.flatMap_congr (fun i _ => ?_)
    rw [← takensSeries_movedTime, content_movedTime]
    congr 1
    unfold movedTime
    rw [List.map_map, List.map_map]
    rfl
  rw [e]
  exact build_movedTime s h5

/-- C228 for `TSCTakensEmbedding.transform`. -/
theorem C228_takens [Mul α] (s : Int) (f : Fitted) (w : Option (Nat → α)) (k : TimeKind) (X Y : Frame α) :
    Takens.transform f w k ⟨X.cols, movedTime s X.rows⟩ = .ok ⟨Y.cols, movedTime s Y.rows⟩ ↔ Takens.transform f w k X = .ok Y := by
  refine ⟨fun h => ?_, takens_movedTime s f w k⟩
  have := takens_movedTime (-s) f w k h
  simpa only [movedTime_back] using this

theorem rollingMean_add [Add α] [Div α] [NatCast α] (s : Int) {w : Nat} (hw : 1 ≤ w) (l : List (Int × List α)) :
    rollingMean w (l.map (fun q => (q.1 + s, q.2))) = (rollingMean w l).map (fun q => (q.1 + s, q.2)) := by
  unfold rollingMean
  rw [List.length_map, List.map_map, List.map_map, List.map_map]
  refine List.map_congr_left (fun q hq => ?_)
  rw [List.mem_range] at hq
  simp only [Function.comp]
  congr 1
  have hlt : q + w - 1 < l.length := by omega
  rw [List.getD_eq_getElem?_getD, List.getD_eq_getElem?_getD, List.getElem?_map, List.getElem?_map, List.getElem?_eq_getElem hlt]
  rfl

theorem movingAverage_movedTime [Add α] [Div α] [NatCast α] (s : Int) (w : Int) (k : TimeKind) {X Y : Frame α} (h : movingAverage w k X = .ok Y) :
    movingAverage w k ⟨X.cols, movedTime s X.rows⟩ = .ok ⟨Y.cols, movedTime s Y.rows⟩ := by
  unfold movingAverage at h ⊢
  rw [movedTime_length, constDelta_movedTime, itertimeseries_movedTime, List.flatMap_map]
  have e : ((itertimeseries X.rows).flatMap (fun p => (rollingMean w.toNat (p.2.map (fun q => (q.1 + s, q.2)))).map (fun q => (⟨p.1, q.1, q.2⟩ : Row Int (List α))))) =
      (itertimeseries X.rows).flatMap (fun p => (rollingMean w.toNat (p.2.map (fun q => (q.1 + s, q.2)))).map (fun q => ⟨p.1, q.1, q.2⟩)) := rfl
  split_ifs at h ⊢ with h1 h2 h3
  have e : ((itertimeseries X.rows).flatMap (fun p => (rollingMean w.toNat (p.2.map (fun q => (q.1 + s, q.2)))).map (fun q => (⟨p.1, q.1, q.2⟩ : Row Int (List α))))) =
      movedTime s ((itertimeseries X.rows).flatMap (fun p => (rollingMean w.toNat p.2).map (fun q => (⟨p.1, q.1, q.2⟩ : Row Int (List α))))) := by
    rw [← movedTime_flatMap]
    refine List.flatMap_congr (fun p _ => ?_)
    rw [rollingMean_add s (by omega)]
    unfold movedTime
    rw [List.map_map, List.map_map]
    rfl
  simp only at e ⊢
  rw [e]
  cases hb : build ((itertimeseries X.rows).flatMap (fun p => (rollingMean w.toNat p.2).map (fun q => (⟨p.1, q.1, q.2⟩ : Row Int (List α))))) with
  | error e => rw [hb] at h; exact nomatch h
  | ok rows =>
    rw [hb] at h
    cases h
    rw [build_movedTime s hb]

/-- C228 for `TSCMovingAverage`. -/
theorem C228_moving_average [Add α] [Div α] [NatCast α] (s : Int) (w : Int) (k : TimeKind) (X Y : Frame α) :
    movingAverage w k ⟨X.cols, movedTime s X.rows⟩ = .ok ⟨Y.cols, movedTime s Y.rows⟩ ↔ movingAverage w k X = .ok Y := by
  refine ⟨fun h => ?_, movingAverage_movedTime s w k⟩
  have := movingAverage_movedTime (-s) w k h
  simpa only [movedTime_back] using this

omit [Fintype ι] in
theorem fdSeries_add (s : Int) (scheme : Scheme) (st : Stencil) (q : Nat) (shift : Bool) (dt : ℝ) (l : List (Int × (ι → ℝ))) :
    fdSeries scheme st q shift dt (l.map (fun p => (p.1 + s, p.2))) = (fdSeries scheme st q shift dt l).map (fun p => (p.1 + s, p.2)) := by
  unfold fdSeries
  have e1 : (l.map (fun p => (p.1 + s, p.2))).map (·.1) = (l.map (·.1)).map (· + s) := by
    rw [List.map_map, List.map_map]; rfl
  have e2 : (l.map (fun p => (p.1 + s, p.2))).map (·.2) = l.map (·.2) := by
    rw [List.map_map]; rfl
  rw [e1, e2, List.length_map]
  simp only
  split_ifs
  · rw [← List.map_drop, List.zip_map_left]
    rfl
  · rw [← List.map_take, ← List.map_drop, List.zip_map_left]
    rfl

omit [Fintype ι] in
theorem derivative_movedTime (s : Int) (scheme : Scheme) (st : Stencil) (q : Nat) (shift : Bool) {c d : List (Row Int (ι → ℝ))} (hc : c ≠ []) (hv : Valid c)
    (h : timeDerivative scheme st q shift c = .ok d) : timeDerivative scheme st q shift (movedTime s c) = .ok (movedTime s d) := by
  obtain ⟨dt, h0, h⟩ := derivative_spacing h
  have e : timeDerivative scheme st q shift (movedTime s c) = fromFrameList (fdFrames scheme st q shift dt (movedTime s c)) (some (ids (movedTime s c))) := by
    unfold timeDerivative isConstDeltaTime
    rw [deltaTime_movedTime, h0]
    rfl
  rw [e]
  have hid : ∀ i, HasId (movedTime s c) i ↔ HasId c i := fun i => by rw [← mem_ids, ids_movedTime, mem_ids]
  have hlen : ∀ i, (series (movedTime s c) i).length = (series c i).length := fun i => by
    rw [← content_length, content_movedTime, List.length_map, content_length]
  obtain ⟨h1, h2⟩ := fdFrames_ok hc hv scheme st q shift (dt : ℝ)
  obtain ⟨h3, h4⟩ := fdFrames_ok (movedTime_ne_nil (s := s) hc) (movedTime_valid hv s) scheme st q shift (dt : ℝ)
  obtain ⟨d', hd'⟩ := h3.2 (fun i hi => by rw [hlen]; exact h1.1 ⟨d, h⟩ i ((hid i).1 hi))
  obtain ⟨a1, a2, -, a4, -⟩ := h2 d h
  obtain ⟨b1, b2, -, b4, -⟩ := h4 d' hd'
  rw [hd']
  congr 1
  rw [← b1.eq_flatMap, b2]
  conv_rhs => rw [← a1.eq_flatMap, a2]
  rw [← movedTime_flatMap, ids_movedTime]
  refine List.flatMap_congr (fun i hi => ?_)
  rw [mem_ids] at hi
  rw [series_eq_content, series_eq_content, b4 i ((hid i).2 hi), a4 i hi, content_movedTime, fdSeries_add]
  unfold movedTime
  rw [List.map_map, List.map_map]
  rfl

omit [Fintype ι] in
/-- C228 for `time_derivative`. -/
theorem C228_derivative (s : Int) (scheme : Scheme) (st : Stencil) (q : Nat) (shift : Bool) {c d : List (Row Int (ι → ℝ))} (hc : c ≠ []) (hv : Valid c) :
    timeDerivative scheme st q shift (movedTime s c) = .ok (movedTime s d) ↔ timeDerivative scheme st q shift c = .ok d := by
  refine ⟨fun h => ?_, derivative_movedTime s scheme st q shift hc hv⟩
  have := derivative_movedTime (-s) scheme st q shift (movedTime_ne_nil hc) (movedTime_valid hv s) h
  rwa [movedTime_back, movedTime_back] at this

end transformers

/-- non-vacuity: the reconstruction of noisy data of two time series exists for every matrix; with data that start 7 later it is the same reconstruction, 7 later. -/
example (K : Matrix (Fin 1) (Fin 1) ℝ) : ∃ r, reconstructWith PredErr.tsc (predictMatrix K 2) .int exNoisy = .ok r ∧
    reconstructWith PredErr.tsc (predictMatrix K 2) .int (movedTime 7 exNoisy) = .ok (movedTime 7 r) ∧ (content (movedTime 7 r) 5).map (·.1) = [17, 19] := by
  have hne : exNoisy ≠ [] := by simp [exNoisy]
  have hv : Valid exNoisy := by
    rw [valid_iff]; constructor
    · decide
    · unfold Before; decide
  have hd : HasDeltas .int exNoisy (fun _ => 2) := by
    apply hasDeltas_int hne hv
    rintro i ⟨r, hr, rfl⟩
    simp only [exNoisy, List.mem_cons, List.not_mem_nil, or_false] at hr
    rcases hr with rfl | rfl | rfl | rfl | rfl <;> unfold Regular <;> decide
  obtain ⟨r, h1, -, -, h4⟩ := C226_error hne hv hd K
  refine ⟨r, h1, (C228_reconstruct .int 7 K 2 exNoisy r).2 h1, ?_⟩
  have e : (content r 5).map (·.1) = [10, 12] := by
    rw [content_times, (h4 5).1]
    decide
  rw [content_movedTime, List.map_map]
  have e2 : ((·.1) ∘ fun p : Int × (Fin 1 → ℝ) => (p.1 + 7, p.2)) = (fun t : Int => t + 7) ∘ (·.1) := rfl
  rw [e2, ← List.map_map, e]
  rfl

/-- non-vacuity: initial states of a collection with descending IDs. -/
example : initialStates (movedTime 100 ([⟨3, 2, 1⟩, ⟨3, 4, 2⟩, ⟨1, 5, 4⟩, ⟨1, 7, 4⟩] : List (Row Int Nat))) 1 = .ok (movedTime 100 [⟨3, 2, 1⟩, ⟨1, 5, 4⟩]) :=
  ((C228_states 100 _ _).1 1).2 (by with_unfolding_all rfl)

end Verif.Dmd
