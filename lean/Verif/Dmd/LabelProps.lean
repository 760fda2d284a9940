import Verif.Dmd.TimeOriginProps
import Verif.Tsc.Folds
/-!
# C233: IDs are labels

`renamed f c` is the collection with every ID `i` replaced by `f i`.  Renaming the time series of the data renames those of the results, if the order of the IDs stays the same.
-/

namespace Verif.Dmd

open Verif.Tsc Verif.Np Verif.Lin Verif.Dyn Verif.Takens Verif.Transform Matrix

/-- The same collection under other IDs. -/
def renamed {τ V : Type} (f : Nat → Nat) (c : List (Row τ V)) : List (Row τ V) := c.map (fun r => ⟨f r.id, r.time, r.val⟩)

/-- Values per ID under the new names. -/
def renamedPer {α : Type} (f : Nat → Nat) : PerId α → PerId α
  | .one a => .one a
  | .per l => .per (l.map (fun p => (f p.1, p.2)))

section lemmas

variable {τ V W : Type} [LinearOrder τ] {f : Nat → Nat}

omit [LinearOrder τ] in
theorem renamed_ids_col (f : Nat → Nat) (c : List (Row τ V)) : (renamed f c).map (·.id) = (c.map (·.id)).map f := by
  unfold renamed
  rw [List.map_map, List.map_map]
  rfl

omit [LinearOrder τ] in
theorem renamed_val_col (f : Nat → Nat) (c : List (Row τ V)) : (renamed f c).map (·.val) = c.map (·.val) := by
  unfold renamed
  rw [List.map_map]
  rfl

omit [LinearOrder τ] in
theorem renamed_time_col (f : Nat → Nat) (c : List (Row τ V)) : (renamed f c).map (·.time) = c.map (·.time) := by
  unfold renamed
  rw [List.map_map]
  rfl

omit [LinearOrder τ] in
theorem renamed_length (f : Nat → Nat) (c : List (Row τ V)) : (renamed f c).length = c.length := by
  unfold renamed
  rw [List.length_map]

omit [LinearOrder τ] in
theorem ids_renamed (hf : StrictMono f) (c : List (Row τ V)) : ids (renamed f c) = (ids c).map f := by
  unfold ids
  rw [renamed_ids_col, unique_map_mono hf]

omit [LinearOrder τ] in
theorem nTimeseries_renamed (hf : StrictMono f) (c : List (Row τ V)) : nTimeseries (renamed f c) = nTimeseries c := by
  unfold nTimeseries
  rw [ids_renamed hf, List.length_map]

omit [LinearOrder τ] in
theorem counts_renamed (hf : StrictMono f) (c : List (Row τ V)) : counts (renamed f c) = counts c := by
  unfold counts
  rw [renamed_ids_col, ids_renamed hf, List.map_map]
  refine List.map_congr_left (fun i _ => ?_)
  simp only [Function.comp]
  rw [List.count_map_of_injective _ _ hf.injective]

omit [LinearOrder τ] in
theorem nTimesteps_renamed (hf : StrictMono f) (c : List (Row τ V)) : nTimesteps (renamed f c) = renamedPer f (nTimesteps c) := by
  unfold nTimesteps
  rw [counts_renamed hf, ids_renamed hf, nTimeseries_renamed hf]
  split_ifs
  · rfl
  · unfold renamedPer
    rw [List.zip_map_left]
    rfl

theorem renamedPer_values {α : Type} (f : Nat → Nat) (p : PerId α) : (renamedPer f p).values = p.values := by
  cases p with
  | one a => rfl
  | per l =>
    show (l.map (fun p => (f p.1, p.2))).map (·.2) = l.map (·.2)
    rw [List.map_map]
    rfl

omit [LinearOrder τ] in
theorem checkMin_renamed (hf : StrictMono f) (c : List (Row τ V)) (n : Int) : checkMinTimesteps (renamed f c) n = checkMinTimesteps c n := by
  unfold checkMinTimesteps
  rw [nTimesteps_renamed hf, renamedPer_values]

theorem timeValues_renamed (f : Nat → Nat) (c : List (Row τ V)) : timeValues (renamed f c) = timeValues c := by
  unfold timeValues
  rw [renamed_time_col]

theorem sameTimes_renamed (hf : StrictMono f) (c : List (Row τ V)) : isSameTimeValues (renamed f c) = isSameTimeValues c := by
  unfold isSameTimeValues
  rw [nTimeseries_renamed hf, nTimesteps_renamed hf, timeValues_renamed]
  cases nTimesteps c <;> rfl

omit [LinearOrder τ] in
theorem newIds_map {f : Nat → Nat} (hf : Function.Injective f) (l : List Nat) : newIds (l.map f) = (newIds l).map f := by
  fun_induction newIds l with
  | case1 => rfl
  | case2 a => rfl
  | case3 a l ih =>
    simp only [List.map_cons] at ih ⊢
    rw [newIds, if_pos rfl, ih]
  | case4 a b l hne ih =>
    simp only [List.map_cons] at ih ⊢
    rw [newIds, if_neg (fun h => hne (hf h)), ih]

omit [LinearOrder τ] in
theorem anyDuplicated_map {α β : Type} [DecidableEq α] [DecidableEq β] {g : α → β} (hg : Function.Injective g) (l : List α) : anyDuplicated (l.map g) = anyDuplicated l := by
  unfold anyDuplicated
  congr 1
  rw [Bool.eq_iff_iff, decide_eq_true_iff, decide_eq_true_iff, List.nodup_map_iff hg]

omit [LinearOrder τ] in
/-- The effect of the new names on the rows of the index. -/
def renameKey (f : Nat → Nat) (k : Key τ) : Key τ := ⟨f k.id, k.time⟩

omit [LinearOrder τ] in
theorem renamed_keys (f : Nat → Nat) (c : List (Row τ V)) : (renamed f c).map (·.key) = (c.map (·.key)).map (renameKey f) := by
  unfold renamed
  rw [List.map_map, List.map_map]
  rfl

omit [LinearOrder τ] in
theorem renameKey_injective (hf : Function.Injective f) : Function.Injective (renameKey (τ := τ) f) := by
  rintro ⟨a, s⟩ ⟨b, t⟩ h
  unfold renameKey at h
  injection h with h1 h2
  have h3 : a = b := hf h1
  have h4 : s = t := h2
  rw [h3, h4]

theorem notSorted_renamed (hf : Function.Injective f) (c : List (Row τ V)) : construct.notSorted (renamed f c) = construct.notSorted c := by
  unfold renamed
  fun_induction construct.notSorted c with
  | case1 a b l ih =>
    simp only [List.map_cons, construct.notSorted] at ih ⊢
    rw [ih]
    congr 2
    rw [Bool.eq_iff_iff, beq_iff_eq, beq_iff_eq, hf.eq_iff]
  | case2 l h =>
    match l with
    | [] => rfl
    | [a] => rfl
    | a :: b :: l => exact absurd rfl (h a b l)

theorem build_renamed (hf : Function.Injective f) (c : List (Row τ V)) : build (renamed f c) = (build c).map (renamed f) := by
  unfold build construct
  rw [renamed_keys, renamed_ids_col, notSorted_renamed hf, anyDuplicated_map (renameKey_injective hf), newIds_map hf, anyDuplicated_map hf]
  have : (renamed f c).isEmpty = c.isEmpty := by cases c <;> rfl
  rw [this]
  by_cases h1 : anyDuplicated (c.map (·.key)) = true
  · simp only [if_pos h1]; rfl
  · simp only [if_neg h1]
    by_cases h2 : c.isEmpty = true
    · simp only [if_pos h2]; rfl
    · simp only [if_neg h2]
      by_cases h3 : anyDuplicated (newIds (c.map (·.id))) = true
      · simp only [if_pos h3]; rfl
      · simp only [if_neg h3]
        by_cases h4 : construct.notSorted c = true
        · simp only [if_pos h4]; rfl
        · simp only [if_neg h4]; rfl

omit [LinearOrder τ] in
theorem groupHead_renamed (hf : Function.Injective f) (n : Nat) (c : List (Row τ V)) : ∀ seen, groupHead n (seen.map f) (renamed f c) = renamed f (groupHead n seen c) := by
  induction c with
  | nil => intro _; rfl
  | cons r c ih =>
    intro seen
    have e1 : ∀ seen (r : Row τ V) l, groupHead n seen (r :: l) = if seen.count r.id < n then r :: groupHead n (r.id :: seen) l else groupHead n (r.id :: seen) l := fun _ _ _ => rfl
    have e2 : renamed f (r :: c) = ⟨f r.id, r.time, r.val⟩ :: renamed f c := rfl
    rw [e2, e1, e1, List.count_map_of_injective _ _ hf]
    have := ih (r.id :: seen)
    rw [List.map_cons] at this
    rw [this]
    split <;> rfl

omit [LinearOrder τ] in
theorem groupTail_renamed (hf : Function.Injective f) (n : Nat) (c : List (Row τ V)) : groupTail n (renamed f c) = renamed f (groupTail n c) := by
  induction c with
  | nil => rfl
  | cons r c ih =>
    have e1 : ∀ (r : Row τ V) l, groupTail n (r :: l) = if (l.map (·.id)).count r.id < n then r :: groupTail n l else groupTail n l := fun _ _ => rfl
    have e2 : renamed f (r :: c) = ⟨f r.id, r.time, r.val⟩ :: renamed f c := rfl
    rw [e2, e1, e1, ih, renamed_ids_col, List.count_map_of_injective _ _ hf]
    split <;> rfl

omit [LinearOrder τ] in
theorem filterId_renamed (hf : Function.Injective f) (c : List (Row τ V)) (i : Nat) : (renamed f c).filter (fun r => r.id == f i) = renamed f (c.filter (fun r => r.id == i)) := by
  unfold renamed
  rw [List.filter_map]
  congr 1
  refine List.filter_congr (fun r _ => ?_)
  simp only [Function.comp]
  rw [Bool.eq_iff_iff, beq_iff_eq, beq_iff_eq, hf.eq_iff]

theorem initial_renamed (hf : StrictMono f) (c : List (Row τ V)) (n : Int) : initialStates (renamed f c) n = (initialStates c n).map (renamed f) := by
  unfold initialStates
  rw [checkMin_renamed hf]
  have := groupHead_renamed hf.injective n.toNat c []
  rw [List.map_nil] at this
  rw [this, build_renamed hf.injective]
  split_ifs <;> rfl

theorem final_renamed (hf : StrictMono f) (c : List (Row τ V)) (n : Int) : finalStates (renamed f c) n = (finalStates c n).map (renamed f) := by
  unfold finalStates
  rw [checkMin_renamed hf, groupTail_renamed hf.injective, build_renamed hf.injective]
  split_ifs <;> rfl

theorem dropLast_renamed (hf : StrictMono f) (c : List (Row τ V)) (n : Nat) : dropLastN (renamed f c) n = (dropLastN c n).map (renamed f) := by
  unfold dropLastN
  rw [checkMin_renamed hf, groupTail_renamed hf.injective]
  have e : dropKeys (renamed f c) ((renamed f (groupTail n c)).map (·.key)) = renamed f (dropKeys c ((groupTail n c).map (·.key))) := by
    rw [renamed_keys]
    unfold dropKeys renamed
    rw [List.filter_map]
    congr 1
    refine List.filter_congr (fun r _ => ?_)
    simp only [Function.comp]
    congr 1
    rw [Bool.eq_iff_iff, List.contains_iff_mem, List.contains_iff_mem]
    exact List.mem_map_of_injective (a := r.key) (renameKey_injective hf.injective)
  rw [e, build_renamed hf.injective]
  split_ifs <;> rfl

omit [LinearOrder τ] in
theorem shiftMatrices_renamed (hf : StrictMono f) (c : List (Row τ V)) : shiftMatrices (renamed f c) = shiftMatrices c := by
  unfold shiftMatrices shiftRows
  rw [checkMin_renamed hf, nTimeseries_renamed hf, nTimesteps_renamed hf, renamed_val_col]
  cases nTimesteps c with
  | one k => rfl
  | per l =>
    unfold renamedPer
    simp only [List.map_map]
    rfl

omit [LinearOrder τ] in
theorem itertimeseries_renamed (hf : StrictMono f) (c : List (Row τ V)) : itertimeseries (renamed f c) = (itertimeseries c).map (fun p => (f p.1, p.2)) := by
  unfold itertimeseries
  rw [ids_renamed hf, List.map_map, List.map_map]
  refine List.map_congr_left (fun i _ => ?_)
  simp only [Function.comp]
  rw [filterId_renamed hf.injective]
  unfold renamed
  rw [List.map_map]
  rfl

theorem mergeSort_renamed (hf : StrictMono f) (c : List (Row τ V)) : (renamed f c).mergeSort keyLe = renamed f (c.mergeSort keyLe) := by
  unfold renamed
  rw [List.map_mergeSort]
  intro a _ b _
  unfold keyLe
  congr 1
  · rw [Bool.eq_iff_iff, decide_eq_true_iff, decide_eq_true_iff, hf.lt_iff_lt]
  · congr 1
    rw [Bool.eq_iff_iff, beq_iff_eq, beq_iff_eq, hf.injective.eq_iff]

theorem fromTensor_renamed (hf : StrictMono f) (n : Nat) (tensor : List (List V)) (l : List Nat) (times : List τ) :
    fromTensor n tensor (some (l.map f)) times = (fromTensor n tensor (some l) times).map (renamed f) := by
  unfold fromTensor tensorIds
  simp only
  rw [List.length_map, unique_map_mono hf, List.length_map]
  by_cases h1 : l.length ≠ tensor.length
  · simp only [if_pos h1]; rfl
  · simp only [if_neg h1]
    by_cases h2 : (unique l).length ≠ l.length
    · simp only [if_pos h2]; rfl
    · simp only [if_neg h2]
      by_cases h3 : times.length ≠ n
      · simp only [if_pos h3]; rfl
      · simp only [if_neg h3]
        rw [← build_renamed hf.injective, ← mergeSort_renamed hf]
        congr 2
        have e : (l.map f).flatMap (fun i => List.replicate n i) = (l.flatMap (fun i => List.replicate n i)).map f := by
          rw [List.flatMap_map, List.map_flatMap]
          exact List.flatMap_congr (fun i _ => by rw [List.map_replicate])
        rw [e, List.zip_map_left, List.zipWith_map_left]
        unfold renamed
        rw [List.map_zipWith]
        rfl

theorem setTimeLevels_renamed (f : Nat → Nat) (c : List (Row Int V)) (times : List Int) : setTimeLevels (renamed f c) times = renamed f (setTimeLevels c times) := by
  unfold setTimeLevels
  rw [timeValues_renamed]
  unfold renamed
  rw [List.map_map, List.map_map]
  rfl

theorem evolve_renamed (hf : StrictMono f) (X : List (Row Int V)) (times : List Int) (solve : List V → List Int → List (List W)) :
    evolveFrame (renamed f X) times solve = (evolveFrame X times solve).map (renamed f) := by
  unfold evolveFrame
  simp only
  rw [renamed_ids_col, renamed_val_col, unique_map_mono hf, List.length_map, List.length_map]
  by_cases h1 : (unique (X.map (·.id))).length ≠ (X.map (·.id)).length
  · simp only [if_pos h1]; rfl
  · simp only [if_neg h1]
    cases times.min? with
    | none => rfl
    | some a =>
      simp only
      rw [fromTensor_renamed hf]
      cases fromTensor times.length (solve (X.map (·.val)) (times.map (· - a))) (some (X.map (·.id))) (times.map (· - a)) with
      | error e => rfl
      | ok c =>
        simp only [Except.map]
        rw [timeValues_renamed, setTimeLevels_renamed, build_renamed hf.injective]
        by_cases h2 : (timeValues c).map (· + a) ≠ times
        · simp only [if_pos h2]
        · simp only [if_neg h2]
          cases build (setTimeLevels c times) <;> rfl

theorem deltaList_renamed (hf : StrictMono f) (c : List (Row Int V)) : deltaList (renamed f c) = deltaList c := by
  unfold deltaList
  rw [nTimesteps_renamed hf]
  cases nTimesteps c with
  | one n =>
    unfold renamedPer deltaEqualLength
    simp only
    rw [ids_renamed hf, nTimeseries_renamed hf, renamed_time_col, List.map_map]
    rfl
  | per l =>
    unfold renamedPer deltaUnequalLength
    simp only
    rw [ids_renamed hf, renamed_time_col, renamed_ids_col, List.map_map]
    refine List.map_congr_left (fun i _ => ?_)
    simp only [Function.comp]
    have e : (((c.map (·.id)).map f).zipIdx.filter (fun p => p.1 == f i)).map (·.2) = ((c.map (·.id)).zipIdx.filter (fun p => p.1 == i)).map (·.2) := by
      rw [List.zipIdx_map, List.filter_map, List.map_map]
      congr 1
      refine List.filter_congr (fun p _ => ?_)
      simp only [Function.comp, Prod.map]
      rw [Bool.eq_iff_iff, beq_iff_eq, beq_iff_eq, hf.injective.eq_iff]
    rw [e]

theorem deltaTime_renamed (hf : StrictMono f) (k : TimeKind) (c : List (Row Int V)) : deltaTime k (renamed f c) = renamedPer f (deltaTime k c) := by
  unfold deltaTime
  rw [deltaList_renamed hf, ids_renamed hf, nTimeseries_renamed hf]
  split_ifs
  · rfl
  · unfold renamedPer
    rw [List.zip_map_left]
    rfl

theorem constDelta_renamed (hf : StrictMono f) (k : TimeKind) (c : List (Row Int V)) : isConstDeltaTime k (renamed f c) = isConstDeltaTime k c := by
  unfold isConstDeltaTime
  rw [deltaTime_renamed hf]
  cases deltaTime k c <;> rfl

theorem overviewKey_renamed (hf : StrictMono f) (k : TimeKind) (c : List (Row Int V)) (i : Nat) : overviewKey k (renamed f c) (f i) = overviewKey k c i := by
  have e1 : deltaOf k (renamed f c) (f i) = deltaOf k c i := by
    unfold deltaOf
    rw [deltaTime_renamed hf]
    cases deltaTime k c with
    | one d => rfl
    | per l =>
      unfold renamedPer
      simp only
      rw [List.find?_map]
      have : ((fun p : Nat × Option Int => p.1 == f i) ∘ fun p : Nat × Option Int => (f p.1, p.2)) = fun p => p.1 == i := by
        funext p
        simp only [Function.comp]
        rw [Bool.eq_iff_iff, beq_iff_eq, beq_iff_eq, hf.injective.eq_iff]
      rw [this, Option.map_map]
      rfl
  have e2 : timeInterval (renamed f c) (f i) = timeInterval c i := by
    unfold timeInterval
    rw [filterId_renamed hf.injective, renamed_time_col]
  unfold overviewKey
  rw [e1, e2]

theorem mapM_map_eq {α β δ E : Type} {g : α → Except E β} {g' : α → Except E δ} {h : β → δ} (l : List α) (H : ∀ a ∈ l, g' a = (g a).map h) : l.mapM g' = (l.mapM g).map (List.map h) := by
  induction l with
  | nil => rfl
  | cons a l ih =>
    rw [List.mapM_cons, List.mapM_cons, H a (by simp), ih (fun a ha => H a (by simp [ha]))]
    cases g a with
    | error e => rfl
    | ok b => cases l.mapM g <;> rfl

omit [LinearOrder τ] in
theorem renamed_flatMap {α : Type} (f : Nat → Nat) (l : List α) (g : α → List (Row τ V)) : l.flatMap (fun a => renamed f (g a)) = renamed f (l.flatMap g) := by
  unfold renamed
  rw [List.map_flatMap]

theorem iterReconstruct_renamed (hf : StrictMono f) (k : TimeKind) (c : List (Row Int V)) (n : Nat) :
    iterReconstruct k (renamed f c) n = (iterReconstruct k c n).map (List.map (fun g => (renamed f g.1, g.2))) := by
  unfold iterReconstruct
  rw [checkMin_renamed hf, ids_renamed hf]
  have e1 : ((ids c).map f).any (fun i => (overviewKey k (renamed f c) i).isNone) = (ids c).any (fun i => (overviewKey k c i).isNone) := by
    rw [List.any_map]
    congr 1
    funext i
    simp only [Function.comp]
    rw [overviewKey_renamed hf]
  have e2 : ((ids c).map f).filterMap (overviewKey k (renamed f c)) = (ids c).filterMap (overviewKey k c) := by
    rw [List.filterMap_map]
    congr 1
    funext i
    exact overviewKey_renamed hf k c i
  rw [e1, e2]
  split_ifs
  · rfl
  · rfl
  · simp only
    refine mapM_map_eq _ (fun key _ => ?_)
    have e3 : ((ids c).map f).filter (fun i => overviewKey k (renamed f c) i == some key) = ((ids c).filter (fun i => overviewKey k c i == some key)).map f := by
      rw [List.filter_map]
      congr 1
      refine List.filter_congr (fun i _ => ?_)
      simp only [Function.comp]
      rw [overviewKey_renamed hf]
    rw [e3, List.flatMap_map]
    simp only [filterId_renamed hf.injective]
    rw [renamed_flatMap, initial_renamed hf, timeValues_renamed]
    cases initialStates (((ids c).filter (fun i => overviewKey k c i == some key)).flatMap (fun i => c.filter (fun r => r.id == i))) n <;> rfl

theorem reconstruct_renamed {E : Type} {lift : TscErr → E} {predict : List (Row Int V) → List Int → Except E (List (Row Int W))} (hf : StrictMono f)
    (hp : ∀ X times, predict (renamed f X) times = (predict X times).map (renamed f)) (k : TimeKind) (c : List (Row Int V)) :
    reconstructWith lift predict k (renamed f c) = (reconstructWith lift predict k c).map (renamed f) := by
  unfold reconstructWith
  rw [iterReconstruct_renamed hf]
  cases iterReconstruct k c 1 with
  | error e => rfl
  | ok gs =>
    simp only [Except.map]
    have e : (gs.map (fun g => (renamed f g.1, g.2))).mapM (fun g => predict g.1 g.2) = (gs.mapM (fun g => predict g.1 g.2)).map (List.map (renamed f)) := by
      rw [← mapM_map_eq (g' := fun g => predict (renamed f g.1) g.2) gs (fun g _ => hp _ _)]
      induction gs with
      | nil => rfl
      | cons g gs ih => rw [List.map_cons, List.mapM_cons, List.mapM_cons, ih]
    rw [e]
    cases gs.mapM (fun g => predict g.1 g.2) with
    | error e => rfl
    | ok parts =>
      simp only [Except.map]
      have e : (parts.map (renamed f)).flatten = renamed f parts.flatten := by
        unfold renamed
        rw [List.map_flatten]
      rw [e, build_renamed hf.injective]
      cases build parts.flatten <;> rfl

theorem fromFrames_renamed (hf : StrictMono f) (l : List (List (τ × V))) (is : List Nat) :
    fromFrameList (l.map .inr) (some (is.map f)) = (fromFrameList (l.map .inr) (some is)).map (renamed f) := by
  unfold fromFrameList
  simp only [Option.getD_some, List.flatMap_map, List.flatMap_singleton']
  rw [unique_map_mono hf, List.length_map, List.length_map]
  by_cases h1 : (l.map (Sum.inr (α := List (Row τ V)))).isEmpty = true
  · simp only [if_pos h1]; rfl
  · simp only [if_neg h1]
    by_cases h2 : is.length ≠ l.length ∨ (unique is).length ≠ l.length
    · simp only [if_pos h2]; rfl
    · simp only [if_neg h2]
      have e2 : ((is.map f).zip l).mapM (fun p => build (p.2.map (fun q => (⟨p.1, q.1, q.2⟩ : Row τ V)))) =
          ((is.zip l).mapM (fun p => build (p.2.map (fun q => (⟨p.1, q.1, q.2⟩ : Row τ V))))).map (List.map (renamed f)) := by
        rw [← mapM_map_eq (g' := fun p => build (renamed f (p.2.map (fun q => (⟨p.1, q.1, q.2⟩ : Row τ V))))) (is.zip l) (fun p _ => build_renamed hf.injective _)]
        rw [List.zip_map_left]
        generalize is.zip l = ps
        induction ps with
        | nil => rfl
        | cons p ps ih =>
          rw [List.map_cons, List.mapM_cons, List.mapM_cons, ih]
          unfold renamed
          simp only [List.map_map]
          rfl
      rw [e2]
      cases (is.zip l).mapM (fun p => build (p.2.map (fun q => (⟨p.1, q.1, q.2⟩ : Row τ V)))) with
      | error e => rfl
      | ok parts =>
        simp only [Except.map]
        have e : (parts.map (renamed f)).flatten = renamed f parts.flatten := by
          unfold renamed
          rw [List.map_flatten]
        rw [e, build_renamed hf.injective]
        cases build parts.flatten <;> rfl

omit [LinearOrder τ] in
theorem consecutive_map {α β : Type} (g : α → β) (l : List α) : consecutive (l.map g) = (consecutive l).map (fun p => (g p.1, g p.2)) := by
  fun_induction consecutive l with
  | case1 a b l ih => simp only [List.map_cons, consecutive] at ih ⊢; rw [ih]
  | case2 l h =>
    match l with
    | [] => rfl
    | [a] => rfl
    | a :: b :: l => exact absurd rfl (h a b l)

omit [LinearOrder τ] in
theorem snapshotPairs_renamed (hf : Function.Injective f) (c : List (Row τ V)) : snapshotPairs (renamed f c) = snapshotPairs c := by
  unfold snapshotPairs renamed
  rw [consecutive_map, List.filter_map, List.map_map]
  congr 1
  refine List.filter_congr (fun p _ => ?_)
  simp only [Function.comp]
  rw [Bool.eq_iff_iff, beq_iff_eq, beq_iff_eq, hf.eq_iff]

omit [LinearOrder τ] in
theorem hasId_renamed (f : Nat → Nat) (c : List (Row τ V)) (j : Nat) : HasId (renamed f c) j ↔ ∃ i, HasId c i ∧ f i = j := by
  unfold HasId renamed
  constructor
  · rintro ⟨r, hr, rfl⟩
    obtain ⟨q, hq, rfl⟩ := List.mem_map.1 hr
    exact ⟨q.id, ⟨q, hq, rfl⟩, rfl⟩
  · rintro ⟨i, ⟨q, hq, rfl⟩, rfl⟩
    exact ⟨_, List.mem_map_of_mem hq, rfl⟩

omit [LinearOrder τ] in
theorem series_renamed (hf : Function.Injective f) (c : List (Row τ V)) (i : Nat) : series (renamed f c) (f i) = renamed f (series c i) := filterId_renamed hf c i

theorem valid_renamed (hf : Function.Injective f) {c : List (Row τ V)} (hv : Valid c) : Valid (renamed f c) := by
  by_cases hc : c = []
  · subst hc
    exact hv
  · have h := build_renamed hf c
    rw [build_ok_of_valid hv hc] at h
    exact (build_ok_iff.1 h).2.2

end lemmas

variable {V : Type} {ι κ : Type} [Fintype ι] [Fintype κ] {f : Nat → Nat}

/-! ### Property theorems -/

/-- C233: contents of the time series under the new names; validity. -/
theorem C233_content {τ : Type} [LinearOrder τ] (hf : Function.Injective f) (c : List (Row τ V)) :
    (∀ i, content (renamed f c) (f i) = content c i) ∧ (∀ j, HasId (renamed f c) j ↔ ∃ i, HasId c i ∧ f i = j) ∧ (Valid c → Valid (renamed f c)) := by
  refine ⟨fun i => ?_, hasId_renamed f c, valid_renamed hf⟩
  unfold content
  rw [series_renamed hf]
  unfold renamed
  rw [List.map_map]
  rfl

/-- C233 for `initial_states`, `final_states`, `drop_last_n_samples` and `assign_ids_sequential`, including what is refused. -/
theorem C233_states {τ : Type} [LinearOrder τ] (hf : StrictMono f) (c : List (Row τ V)) :
    (∀ n, initialStates (renamed f c) n = (initialStates c n).map (renamed f)) ∧ (∀ n, finalStates (renamed f c) n = (finalStates c n).map (renamed f)) ∧
    (∀ n, dropLastN (renamed f c) n = (dropLastN c n).map (renamed f)) ∧ assignIdsSequential (renamed f c) = assignIdsSequential c := by
  refine ⟨initial_renamed hf c, final_renamed hf c, dropLast_renamed hf c, ?_⟩
  unfold assignIdsSequential
  congr 1
  rw [ids_renamed hf]
  unfold renamed
  rw [List.map_map]
  refine List.map_congr_left (fun r _ => ?_)
  simp only [Function.comp]
  congr 1
  generalize ids c = l
  induction l with
  | nil => rfl
  | cons a l ih => simp only [List.map_cons, List.idxOf_cons, ih, Bool.cond_eq_ite, beq_iff_eq, hf.injective.eq_iff]

/-- C233 for what a collection tells about its sampling, and for the snapshot pairs. -/
theorem C233_sampling (hf : StrictMono f) (k : TimeKind) (c : List (Row Int V)) :
    deltaTime k (renamed f c) = renamedPer f (deltaTime k c) ∧ isConstDeltaTime k (renamed f c) = isConstDeltaTime k c ∧ isSameTimeValues (renamed f c) = isSameTimeValues c ∧
      nTimesteps (renamed f c) = renamedPer f (nTimesteps c) ∧ shiftMatrices (renamed f c) = shiftMatrices c ∧ timeValues (renamed f c) = timeValues c :=
  ⟨deltaTime_renamed hf k c, constDelta_renamed hf k c, sameTimes_renamed hf c, nTimesteps_renamed hf c, shiftMatrices_renamed hf c, timeValues_renamed f c⟩

/-- C233 for the fit of `DMDStandard` with and without sample weights. -/
theorem C233_fit (hf : StrictMono f) (k : TimeKind) (c : List (Row Int (ι → ℝ))) (w : Option (List ℝ)) (K : Matrix ι ι ℝ) : Fits k (renamed f c) w K ↔ Fits k c w K := by
  unfold Fits
  rw [constDelta_renamed hf, shiftMatrices_renamed hf, renamed_length]

/-- C233 for the fit of `DMDControl`: states and controls are renamed together. -/
theorem C233_fit_control (hf : StrictMono f) (k : TimeKind) (c : List (Row Int (ι → ℝ))) (u : List (Row Int (κ → ℝ))) (A : Matrix ι ι ℝ) (B : Matrix ι κ ℝ) :
    FitsControl k (renamed f c) (renamed f u) A B ↔ FitsControl k c u A B := by
  unfold FitsControl
  rw [constDelta_renamed hf, shiftMatrices_renamed hf, renamed_length, renamed_val_col]
  have : controlIndexMatches (renamed f c) (renamed f u) ↔ controlIndexMatches c u := by
    unfold controlIndexMatches
    rw [dropLast_renamed hf]
    cases dropLastN c 1 with
    | error e => simp [Except.map]
    | ok d =>
      simp only [Except.map, Except.ok.injEq, exists_eq_left']
      rw [renamed_keys, renamed_keys]
      exact (List.map_injective_iff.2 (renameKey_injective hf.injective)).eq_iff
  rw [this]

/-- C233 for `predict`, including what is refused. -/
theorem C233_predict [DecidableEq ι] (hf : StrictMono f) (A : Matrix ι ι ℝ) (dt : Int) (X : List (Row Int (ι → ℝ))) (times : List Int) :
    predictMatrix A dt (renamed f X) times = (predictMatrix A dt X times).map (renamed f) := evolve_renamed hf X times _

/-- C233 for `predict` with control input. -/
theorem C233_predict_control [DecidableEq ι] (hf : StrictMono f) (A : Matrix ι ι ℝ) (B : Matrix ι κ ℝ) (X : List (Row Int (ι → ℝ))) (U : List (Row Int (κ → ℝ))) (times : List Int) :
    predictControlled A B (renamed f X) (renamed f U) times = (predictControlled A B X U times).map (renamed f) := by
  have e : validateControl (renamed f X) (renamed f U) = validateControl X U := by
    unfold validateControl
    rw [renamed_ids_col, ids_renamed hf, sameTimes_renamed hf, renamed_time_col, timeValues_renamed]
    by_cases h : X.map (·.id) = ids U
    · simp only [h, ne_eq, not_true_eq_false, if_false]
    · have h' : (X.map (·.id)).map f ≠ (ids U).map f := fun h' => h (List.map_injective_iff.2 hf.injective h')
      rw [if_pos h, if_pos h']
  unfold predictControlled
  rw [e, renamed_val_col, ids_renamed hf, List.length_map, renamed_length]
  cases validateControl X U with
  | error e => rfl
  | ok _ =>
    simp only
    split_ifs
    · rfl
    · exact evolve_renamed hf X times _

/-- C233 for `reconstruct`, including what is refused. -/
theorem C233_reconstruct [DecidableEq ι] (hf : StrictMono f) (k : TimeKind) (A : Matrix ι ι ℝ) (dt : Int) (c : List (Row Int (ι → ℝ))) :
    reconstructWith PredErr.tsc (predictMatrix A dt) k (renamed f c) = (reconstructWith PredErr.tsc (predictMatrix A dt) k c).map (renamed f) :=
  reconstruct_renamed hf (fun X times => C233_predict hf A dt X times) k c

section transformers

variable {α : Type}

/-- C233 for `TSCTakensEmbedding`: what fit learns, and the result of transform. -/
theorem C233_takens [Mul α] (hf : StrictMono f) (p : Params) (g : Fitted) (w : Option (Nat → α)) (k : TimeKind) (X : Frame α) :
    Takens.fit p k ⟨X.cols, renamed f X.rows⟩ = Takens.fit p k X ∧
    (Takens.fit p k X = .ok g → ∀ Y : Frame α, Takens.transform g w k ⟨Y.cols, renamed f Y.rows⟩ = (Takens.transform g w k Y).map (fun Z => ⟨Z.cols, renamed f Z.rows⟩)) := by
  constructor
  · unfold Takens.fit
    simp only [constDelta_renamed hf, checkMin_renamed hf, deltaTime_renamed hf]
    cases validateParams p with
    | error e => rfl
    | ok _ =>
      simp only
      by_cases h : isConstDeltaTime k X.rows = true
      · have : renamedPer f (deltaTime k X.rows) = deltaTime k X.rows := by
          unfold isConstDeltaTime at h
          cases hd : deltaTime k X.rows with
          | one d => rfl
          | per l => rw [hd] at h; exact nomatch h
        rw [this]
      · rw [Bool.not_eq_true] at h
        rw [h]
        rfl
  · intro hg Y
    obtain ⟨d, hd⟩ : ∃ d, g.delta = .one d := by
      unfold Takens.fit at hg
      cases hv : validateParams p with
      | error e => rw [hv] at hg; exact nomatch hg
      | ok _ =>
        rw [hv] at hg
        simp only at hg
        split_ifs at hg with h1 h2
        cases hg
        simp only
        rw [Bool.not_eq_true, Bool.not_eq_false'] at h1
        unfold isConstDeltaTime at h1
        cases hd : deltaTime k X.rows with
        | one d => exact ⟨d, rfl⟩
        | per l => rw [hd] at h1; exact nomatch h1
    unfold Takens.transform
    simp only
    rw [deltaTime_renamed hf, checkMin_renamed hf, hd]
    have e0 : (renamedPer f (deltaTime k Y.rows) ≠ .one d) = (deltaTime k Y.rows ≠ .one d) := by
      cases deltaTime k Y.rows with
      | one a => rfl
      | per l => simp [renamedPer]
    simp only [e0]
    have e : (itertimeseries (renamed f Y.rows)).flatMap (fun p => takensSeries g.delays (kappaVec w g.delays.length g.cols.length) (p.2.map (fun q => (⟨p.1, q.1, q.2⟩ : Row Int (List α))))) =
        renamed f ((itertimeseries Y.rows).flatMap (fun p => takensSeries g.delays (kappaVec w g.delays.length g.cols.length) (p.2.map (fun q => ⟨p.1, q.1, q.2⟩)))) := by
      rw [itertimeseries_renamed hf, List.flatMap_map, ← renamed_flatMap]
      refine List.flatMap_congr (fun p _ => ?_)
      unfold takensSeries renamed
      simp only [List.map_map, ← List.map_drop, List.zipWith_map_left, List.map_zipWith]
      rfl
    rw [e, build_renamed hf.injective]
    split_ifs
    · rfl
    · rfl
    · rfl
    · cases build ((itertimeseries Y.rows).flatMap (fun p => takensSeries g.delays (kappaVec w g.delays.length g.cols.length) (p.2.map (fun q => (⟨p.1, q.1, q.2⟩ : Row Int (List α)))))) <;> rfl
    · rfl

/-- C233 for `TSCMovingAverage`. -/
theorem C233_moving_average [Add α] [Div α] [NatCast α] (hf : StrictMono f) (w : Int) (k : TimeKind) (X : Frame α) :
    movingAverage w k ⟨X.cols, renamed f X.rows⟩ = (movingAverage w k X).map (fun Z => ⟨Z.cols, renamed f Z.rows⟩) := by
  unfold movingAverage
  simp only
  rw [renamed_length, constDelta_renamed hf]
  have e : (itertimeseries (renamed f X.rows)).flatMap (fun p => (rollingMean w.toNat p.2).map (fun q => (⟨p.1, q.1, q.2⟩ : Row Int (List α)))) =
      renamed f ((itertimeseries X.rows).flatMap (fun p => (rollingMean w.toNat p.2).map (fun q => ⟨p.1, q.1, q.2⟩))) := by
    rw [itertimeseries_renamed hf, List.flatMap_map, ← renamed_flatMap]
    refine List.flatMap_congr (fun p _ => ?_)
    unfold renamed
    rw [List.map_map]
    rfl
  rw [e, build_renamed hf.injective]
  split_ifs
  · rfl
  · rfl
  · rfl
  · cases build ((itertimeseries X.rows).flatMap (fun p => (rollingMean w.toNat p.2).map (fun q => (⟨p.1, q.1, q.2⟩ : Row Int (List α))))) <;> rfl

omit [Fintype ι] in
/-- C233 for `time_derivative`. -/
theorem C233_derivative (hf : StrictMono f) (scheme : Scheme) (st : Stencil) (q : Nat) (shift : Bool) (c : List (Row Int (ι → ℝ))) :
    timeDerivative scheme st q shift (renamed f c) = (timeDerivative scheme st q shift c).map (renamed f) := by
  unfold timeDerivative
  rw [constDelta_renamed hf, deltaTime_renamed hf, ids_renamed hf, itertimeseries_renamed hf]
  split_ifs
  · rfl
  · cases deltaTime .int c with
    | per l => rfl
    | one d =>
      cases d with
      | none => rfl
      | some d =>
        simp only [renamedPer, List.map_map]
        have := fromFrames_renamed hf ((itertimeseries c).map (fun p => fdSeries scheme st q shift (d : ℝ) p.2)) (ids c)
        rw [List.map_map] at this
        exact this

end transformers

/-- **C233 (any names).** With equally long time series the snapshot pairs stay the same under all new names, whatever their order. -/
theorem C233_any_names_partial {τ : Type} [LinearOrder τ] (hf : Function.Injective f) {c : List (Row τ V)} (hc : c ≠ []) (hv : Valid c) (h2 : ∀ i, HasId c i → 2 ≤ (series c i).length) (he : EqualLengths c) :
    shiftMatrices (renamed f c) = shiftMatrices c := by
  have hlen : ∀ i, (series (renamed f c) (f i)).length = (series c i).length := fun i => by rw [series_renamed hf, renamed_length]
  obtain ⟨L, R, h1, h3, h4⟩ := C03_shift_matrices_partial hc hv h2 (Or.inr he)
  obtain ⟨L', R', h1', h3', h4'⟩ := C03_shift_matrices_partial (c := renamed f c) (by unfold renamed; simpa using hc) (valid_renamed hf hv)
    (by
      intro j hj
      obtain ⟨i, hi, rfl⟩ := (hasId_renamed f c j).1 hj
      rw [hlen]; exact h2 i hi)
    (Or.inr (by
      intro a b ha hb
      obtain ⟨i, hi, rfl⟩ := (hasId_renamed f c a).1 ha
      obtain ⟨j, hj, rfl⟩ := (hasId_renamed f c b).1 hb
      rw [hlen, hlen]; exact he i j hi hj))
  rw [snapshotPairs_renamed hf, ← h4] at h4'
  rw [h1, h1']
  have e1 : L' = L := by
    rw [← List.map_fst_zip (l₁ := L') (l₂ := R') h3'.le, h4', List.map_fst_zip h3.le]
  have e2 : R' = R := by
    rw [← List.map_snd_zip (l₁ := L') (l₂ := R') h3'.ge, h4', List.map_snd_zip h3.ge]
  rw [e1, e2]

/-- **C233 is violated** by names in another order: exchanging the IDs 0 and 1 of two time series of different lengths changes the data of the fit, although the collections are valid and have the same series. -/
theorem C233_order_violated : ∃ (c : List (Row Nat Nat)) (f : Nat → Nat), Function.Injective f ∧ Valid c ∧ Valid (renamed f c) ∧ (∀ i, HasId c i → 2 ≤ (series c i).length) ∧
    shiftMatrices c = .ok ([10, 11, 20], [11, 12, 21]) ∧ shiftMatrices (renamed f c) = .ok ([10, 12, 20], [11, 20, 21]) := by
  have hinj : Function.Injective (fun n : Nat => if n = 0 then 1 else if n = 1 then 0 else n) := by
    intro a b h
    simp only at h
    split_ifs at h <;> omega
  have hv : Valid ([⟨0, 0, 10⟩, ⟨0, 1, 11⟩, ⟨0, 2, 12⟩, ⟨1, 0, 20⟩, ⟨1, 1, 21⟩] : List (Row Nat Nat)) := by
    rw [valid_iff]
    exact ⟨by decide, by unfold Before; decide +kernel⟩
  refine ⟨[⟨0, 0, 10⟩, ⟨0, 1, 11⟩, ⟨0, 2, 12⟩, ⟨1, 0, 20⟩, ⟨1, 1, 21⟩], fun n => if n = 0 then 1 else if n = 1 then 0 else n, hinj, hv, valid_renamed hinj hv, ?_, by decide, by decide⟩
  rintro i ⟨r, hr, rfl⟩
  revert r; decide

/-- non-vacuity: IDs 3 and 1 in descending order, renamed to 130 and 110. -/
example : initialStates (renamed (fun i => 100 + 10 * i) ([⟨3, 2, 1⟩, ⟨3, 4, 2⟩, ⟨1, 5, 4⟩, ⟨1, 7, 4⟩] : List (Row Int Nat))) 1 = .ok [⟨130, 2, 1⟩, ⟨110, 5, 4⟩] := by
  rw [(C233_states (f := fun i => 100 + 10 * i) (fun a b h => show 100 + 10 * a < 100 + 10 * b by omega) _).1 1]
  with_unfolding_all rfl

end Verif.Dmd
