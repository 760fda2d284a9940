import Verif.Tsc.ShiftLemmas
import Verif.Tsc.DeltaTime
import Verif.Dyn.LinearLemmas
/-! # Row-wise maps of the values of a collection do not touch the index -/

namespace Verif.Tsc

open Verif.Np Verif.Dyn

variable {τ V W : Type}

/-- Apply `f` to the values of every row (a point-wise transformer, or a matrix product from the right). -/
def mapVal (f : V → W) (c : List (Row τ V)) : List (Row τ W) := c.map (fun r => ⟨r.id, r.time, f r.val⟩)

@[simp] theorem mapVal_nil (f : V → W) : mapVal f ([] : List (Row τ V)) = [] := rfl
@[simp] theorem mapVal_cons (f : V → W) (r : Row τ V) (c : List (Row τ V)) : mapVal f (r :: c) = ⟨r.id, r.time, f r.val⟩ :: mapVal f c := rfl
@[simp] theorem mapVal_length (f : V → W) (c : List (Row τ V)) : (mapVal f c).length = c.length := by simp [mapVal]
@[simp] theorem mapVal_ids (f : V → W) (c : List (Row τ V)) : (mapVal f c).map (·.id) = c.map (·.id) := by simp [mapVal]
@[simp] theorem mapVal_times (f : V → W) (c : List (Row τ V)) : (mapVal f c).map (·.time) = c.map (·.time) := by simp [mapVal]
@[simp] theorem mapVal_keys (f : V → W) (c : List (Row τ V)) : (mapVal f c).map (·.key) = c.map (·.key) := by simp [mapVal, Row.key]
theorem mapVal_vals (f : V → W) (c : List (Row τ V)) : (mapVal f c).map (·.val) = (c.map (·.val)).map f := by simp [mapVal]
theorem mapVal_ne_nil {f : V → W} {c : List (Row τ V)} : mapVal f c ≠ [] ↔ c ≠ [] := by simp [mapVal]

theorem mapVal_hasId {f : V → W} {c : List (Row τ V)} {i : Nat} : HasId (mapVal f c) i ↔ HasId c i := by
  unfold HasId
  constructor
  · rintro ⟨r, hr, rfl⟩
    simp only [mapVal, List.mem_map] at hr
    obtain ⟨a, ha, rfl⟩ := hr
    exact ⟨a, ha, rfl⟩
  · rintro ⟨r, hr, rfl⟩
    exact ⟨⟨r.id, r.time, f r.val⟩, List.mem_map.2 ⟨r, hr, rfl⟩, rfl⟩

theorem mapVal_series (f : V → W) (c : List (Row τ V)) (i : Nat) : series (mapVal f c) i = mapVal f (series c i) := by
  simp only [series, mapVal, List.filter_map]
  rfl

theorem mapVal_content (f : V → W) (c : List (Row τ V)) (i : Nat) :
    content (mapVal f c) i = (content c i).map (fun p => (p.1, f p.2)) := by
  unfold content
  rw [mapVal_series]
  simp [mapVal]

theorem mapVal_snapshotPairs (f : V → W) (c : List (Row τ V)) : snapshotPairs (mapVal f c) = (snapshotPairs c).map (fun p => (f p.1, f p.2)) := by
  simp only [snapshotPairs, mapVal, consecutive_map, List.filter_map, List.map_map]
  rfl

theorem mapVal_idsAscending {f : V → W} {c : List (Row τ V)} : IdsAscending (mapVal f c) ↔ IdsAscending c := by
  unfold IdsAscending; rw [mapVal_ids]

theorem mapVal_equalLengths {f : V → W} {c : List (Row τ V)} : EqualLengths (mapVal f c) ↔ EqualLengths c := by
  simp only [EqualLengths, mapVal_hasId, mapVal_series, mapVal_length]

variable [LinearOrder τ]

theorem mapVal_valid {f : V → W} {c : List (Row τ V)} : Valid (mapVal f c) ↔ Valid c := by
  have key : ∀ {A B : Type} (f : A → B) (c : List (Row τ A)), Valid (mapVal f c) ↔ Valid c := by
    intro A B f c
    constructor
    · rintro ⟨h1, h2⟩
      rw [mapVal_ids] at h1
      refine ⟨h1, fun i j hij hj h => ?_⟩
      have := h2 i j hij (by simpa using hj)
      simp only [mapVal, List.getElem_map] at this
      exact this h
    · rintro ⟨h1, h2⟩
      refine ⟨by rw [mapVal_ids]; exact h1, fun i j hij hj h => ?_⟩
      simp only [mapVal, List.getElem_map] at h ⊢
      exact h2 i j hij (by simpa using hj) h
  exact key f c

omit [LinearOrder τ] in
theorem mapVal_mapVal {U : Type} (f : V → W) (g : U → V) (c : List (Row τ U)) : mapVal f (mapVal g c) = mapVal (f ∘ g) c := by
  simp [mapVal]

omit [LinearOrder τ] in
@[simp] theorem mapVal_ids' (f : V → W) (c : List (Row τ V)) : ids (mapVal f c) = ids c := by unfold ids; rw [mapVal_ids]
@[simp] theorem mapVal_counts (f : V → W) (c : List (Row τ V)) : counts (mapVal f c) = counts c := by unfold counts; rw [mapVal_ids', mapVal_ids]
@[simp] theorem mapVal_nTimesteps (f : V → W) (c : List (Row τ V)) : nTimesteps (mapVal f c) = nTimesteps c := by
  unfold nTimesteps nTimeseries; rw [mapVal_ids', mapVal_counts]
@[simp] theorem mapVal_timeValues (f : V → W) (c : List (Row τ V)) : timeValues (mapVal f c) = timeValues c := by
  unfold timeValues; rw [mapVal_times]

theorem mapVal_deltaTime (k : TimeKind) (f : V → W) (c : List (Row Int V)) : deltaTime k (mapVal f c) = deltaTime k c := by
  have h : deltaList (mapVal f c) = deltaList c := by
    unfold deltaList deltaEqualLength deltaUnequalLength nTimeseries
    rw [mapVal_nTimesteps, mapVal_ids', mapVal_times, mapVal_ids]
  unfold deltaTime nTimeseries
  rw [h, mapVal_ids']

theorem mapVal_isConstDeltaTime (k : TimeKind) (f : V → W) (c : List (Row Int V)) : isConstDeltaTime k (mapVal f c) = isConstDeltaTime k c := by
  unfold isConstDeltaTime; rw [mapVal_deltaTime]

theorem mapVal_notSorted (f : V → W) (c : List (Row τ V)) : construct.notSorted (mapVal f c) = construct.notSorted c := by
  fun_induction construct.notSorted c with
  | case1 a b l ih => simp only [mapVal_cons, construct.notSorted] at ih ⊢; rw [ih]
  | case2 l h =>
    match l with
    | [] => rfl
    | [a] => rfl
    | a :: b :: l => exact absurd rfl (h a b l)

theorem mapVal_build (f : V → W) (c : List (Row τ V)) : build (mapVal f c) = (build c).map (mapVal f) := by
  unfold build construct
  rw [mapVal_keys, mapVal_ids, mapVal_notSorted]
  have : (mapVal f c).isEmpty = c.isEmpty := by cases c <;> rfl
  rw [this]
  by_cases h1 : anyDuplicated (c.map (·.key)) = true
  · simp only [if_pos h1]; rfl
  · simp only [if_neg h1]
    by_cases h2 : c.isEmpty = true
    · simp only [if_pos h2]; rfl
    · simp only [if_neg h2]
      by_cases h3 : anyDuplicated (newIds (c.map (·.id))) = true
      · simp only [if_pos h3]; rfl
      · simp only [if_neg h3]
        by_cases h4 : construct.notSorted c = true
        · simp only [if_pos h4]; rfl
        · simp only [if_neg h4]; rfl

theorem mapVal_mergeSort (f : V → W) (c : List (Row τ V)) : (mapVal f c).mergeSort keyLe = mapVal f (c.mergeSort keyLe) := by
  unfold mapVal
  rw [List.map_mergeSort]
  intro a _ b _; rfl

theorem mapVal_fromTensor (f : V → W) (n : Nat) (tensor : List (List V)) (tsIds : Option (List Nat)) (times : List τ) :
    fromTensor n (tensor.map (·.map f)) tsIds times = (fromTensor n tensor tsIds times).map (mapVal f) := by
  unfold fromTensor
  rw [List.length_map]
  split
  · rfl
  · split
    · rfl
    · simp only
      rw [← mapVal_build, ← mapVal_mergeSort]
      congr 2
      rw [← List.map_flatten]
      simp only [mapVal, List.map_zipWith, List.zipWith_map_right]

theorem mapVal_setTimeLevels (f : V → W) (c : List (Row Int V)) (times : List Int) : setTimeLevels (mapVal f c) times = mapVal f (setTimeLevels c times) := by
  unfold setTimeLevels
  rw [mapVal_timeValues]
  simp [mapVal]

/-- The frame around the solvers is natural in the values. -/
theorem evolveFrame_map {U : Type} (f : V → W) (X : List (Row Int U)) (times : List Int) (solve : List U → List Int → List (List V)) :
    evolveFrame X times (fun ics norm => (solve ics norm).map (·.map f)) = (evolveFrame X times solve).map (mapVal f) := by
  unfold evolveFrame
  simp only
  split
  · rfl
  · split
    · rfl
    · rw [mapVal_fromTensor]
      split <;> rename_i h
      · cases hf : fromTensor times.length (solve (X.map (·.val)) (times.map (· - _))) (some (X.map (·.id))) (times.map (· - _)) with
        | error e' => rw [hf] at h; simp only [Except.map] at h; cases h; rfl
        | ok c => rw [hf] at h; simp [Except.map] at h
      · cases hf : fromTensor times.length (solve (X.map (·.val)) (times.map (· - _))) (some (X.map (·.id))) (times.map (· - _)) with
        | error e' => rw [hf] at h; simp [Except.map] at h
        | ok c =>
          rw [hf] at h; simp only [Except.map, Except.ok.injEq] at h; subst h
          simp only [mapVal_timeValues, mapVal_setTimeLevels, mapVal_build]
          split
          · rfl
          · cases build (setTimeLevels c times) <;> rfl

/-- The solver sees the initial states only as the row values. -/
theorem evolveFrame_mapIc {U : Type} (g : U → V) (X : List (Row Int U)) (times : List Int) (solve : List V → List Int → List (List W)) :
    evolveFrame (mapVal g X) times solve = evolveFrame X times (fun ics norm => solve (ics.map g) norm) := by
  unfold evolveFrame
  rw [mapVal_ids, mapVal_vals]

end Verif.Tsc
