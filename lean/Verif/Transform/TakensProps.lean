import Verif.Transform.TakensLemmas
import Mathlib.Analysis.SpecialFunctions.Exp
/-! # Properties C18, C19, C21: time delay embedding -/

namespace Verif.Takens

open Verif.Tsc Verif.Np

variable {α : Type}

/-- **C21.** With accepted parameters there are exactly `delays` delay indices, the `k`-th is `lag + 1 + k * frequency`; they increase strictly, all are larger
than `lag` and consecutive ones differ by `frequency`. -/
theorem C21_delay_indices {p : Params} (h : validateParams p = .ok ()) :
    (delayIndices p).length = p.delays.toNat ∧
    (∀ k (hk : k < (delayIndices p).length), ((delayIndices p)[k] : Int) = p.lag + 1 + k * p.frequency) ∧
    (delayIndices p).Pairwise (· < ·) ∧ (∀ d ∈ delayIndices p, p.lag < d) ∧
    (∀ q ∈ consecutive (delayIndices p), (q.2 : Int) = q.1 + p.frequency) := by
  have he := delayIndices_eq h
  rw [validateParams_ok] at h
  have hget : ∀ k (hk : k < (delayIndices p).length), ((delayIndices p)[k] : Int) = p.lag + 1 + k * p.frequency := by
    intro k hk
    have : (delayIndices p)[k] = delay p.lag.toNat p.frequency.toNat k := by simp [he]
    rw [this]; unfold delay
    push_cast
    rw [Int.toNat_of_nonneg h.2.1, Int.toNat_of_nonneg (by omega)]
  refine ⟨by simp [he], hget, ?_, ?_, ?_⟩
  · rw [he, List.pairwise_map]
    refine List.pairwise_lt_range.imp ?_
    intro a b hab
    have := Nat.mul_lt_mul_of_pos_right hab (show 0 < p.frequency.toNat by omega)
    simp only [delay]; omega
  · intro d hd
    obtain ⟨k, hk, rfl⟩ := List.mem_iff_getElem.1 hd
    rw [hget k hk]
    have : (0 : Int) ≤ k * p.frequency := Int.mul_nonneg (by omega) (by omega)
    omega
  · have hc : ∀ (l : List Nat), (∀ k (hk : k + 1 < l.length), (l[k+1] : Int) = l[k] + p.frequency) →
        ∀ q ∈ consecutive l, (q.2 : Int) = q.1 + p.frequency := by
      intro l
      induction l with
      | nil => simp [consecutive]
      | cons a l ih =>
        cases l with
        | nil => simp [consecutive]
        | cons b l =>
          intro hl q hq
          rw [consecutive, List.mem_cons] at hq
          rcases hq with rfl | hq
          · exact hl 0 (by simp)
          · exact ih (fun k hk => hl (k + 1) (by simp at hk ⊢; omega)) q hq
    apply hc
    intro k hk
    rw [hget (k + 1) hk, hget k (by omega)]
    push_cast; ring

/-- The parameters that are accepted. -/
theorem C21_accepts (p : Params) : validateParams p = .ok () ↔
    1 ≤ p.delays ∧ 0 ≤ p.lag ∧ 1 ≤ p.frequency ∧ (1 < p.frequency → 1 < p.delays) := validateParams_ok p

example : validateParams ⟨2, 3, 4⟩ = .ok () ∧ delayIndices ⟨2, 3, 4⟩ = [3, 7, 11] := by decide

/-- Number of samples a series loses for the parameters `p`. -/
def lost (p : Params) : Nat := largestDelay p.lag.toNat p.delays.toNat p.frequency.toNat

/-- What a successful `fit` stored. -/
theorem fit_ok {p : Params} {k : TimeKind} {X : Frame α} {f : Fitted} (h : fit p k X = .ok f) :
    validateParams p = .ok () ∧ f = ⟨delayIndices p, X.cols, deltaTime k X.rows⟩ ∧ isConstDeltaTime k X.rows = true ∧
      checkMinTimesteps X.rows (maxDelay (delayIndices p) + 1 : Nat) = true := by
  unfold fit at h
  split at h
  · simp at h
  · rename_i hv
    simp only at h
    split at h
    · simp at h
    · split at h
      · simp at h
      · simp_all

theorem fit_delays {p : Params} {k : TimeKind} {X : Frame α} {f : Fitted} (h : fit p k X = .ok f) :
    f.delays = (List.range p.delays.toNat).map (delay p.lag.toNat p.frequency.toNat) ∧ 1 ≤ p.delays.toNat ∧
      maxDelay f.delays = lost p ∧ f.cols = X.cols ∧ f.delta = deltaTime k X.rows := by
  obtain ⟨h1, rfl, -, -⟩ := fit_ok h
  have h2 := (validateParams_ok p).1 h1
  refine ⟨delayIndices_eq h1, by omega, ?_, rfl, rfl⟩
  simp only
  rw [delayIndices_eq h1]; exact maxDelay_delays _ _ _ (by omega)

/-- The rows `transform` hands to the constructor. -/
def outRows [Mul α] (f : Fitted) (w : Option (Nat → α)) (X : Frame α) : List (Row Int (List α)) :=
  (ids X.rows).flatMap (fun i => takensSeries f.delays (kappaVec w f.delays.length f.cols.length)
    ((content X.rows i).map (fun q => ⟨i, q.1, q.2⟩)))

theorem transform_eq [Mul α] (f : Fitted) (w : Option (Nat → α)) (k : TimeKind) (X : Frame α) (Y : Frame α) :
    transform f w k X = .ok Y ↔ deltaTime k X.rows = f.delta ∧ checkMinTimesteps X.rows (maxDelay f.delays + 1 : Nat) = true ∧
      X.cols = f.cols ∧ (featureNamesOut f.cols f.delays).Nodup ∧ build (outRows f w X) = .ok Y.rows ∧
      Y.cols = featureNamesOut f.cols f.delays := by
  have hrows : (itertimeseries X.rows).flatMap (fun p =>
        takensSeries f.delays (kappaVec w f.delays.length f.cols.length) (p.2.map (fun q => (⟨p.1, q.1, q.2⟩ : Row Int (List α))))) = outRows f w X := by
    unfold itertimeseries outRows
    rw [List.flatMap_map]
    rfl
  unfold transform
  simp only [hrows]
  generalize checkMinTimesteps X.rows (maxDelay f.delays + 1 : Nat) = b
  by_cases h1 : deltaTime k X.rows = f.delta
  · by_cases h2 : b = true
    · by_cases h3 : X.cols = f.cols
      · by_cases h4 : (featureNamesOut f.cols f.delays).Nodup
        · simp only [h1, h2, h3, h4, ne_eq, not_true, if_false, Bool.not_true, Bool.false_eq_true, true_and]
          cases hb : build (outRows f w X) with
          | error e => simp
          | ok r =>
            cases Y with
            | mk c r' => simp only [Except.ok.injEq, Frame.mk.injEq]; constructor <;> (rintro ⟨rfl, rfl⟩; exact ⟨rfl, rfl⟩)
        · simp [h1, h2, h3, h4]
      · simp [h1, h2, h3]
    · simp [h1, h2]
  · simp [h1]

theorem IsEmbedding.length_pos {lag d f : Nat} {sc : Nat → α → α} {s s' : List (Int × List α)} (h : IsEmbedding lag d f sc s s')
    (hl : largestDelay lag d f < s.length) : s' ≠ [] := by
  intro e
  have := h.1
  rw [e] at this; simp at this; omega

/-- Times of an embedded series are those of the original without the first samples. -/
theorem IsEmbedding.times {lag d f : Nat} {sc : Nat → α → α} {s s' : List (Int × List α)} (h : IsEmbedding lag d f sc s s') :
    s'.map (·.1) = (s.map (·.1)).drop (largestDelay lag d f) := by
  apply List.ext_getElem?
  intro q
  by_cases hq : largestDelay lag d f + q < s.length
  · have := h.2 (largestDelay lag d f + q) (by omega) hq
    rw [Nat.add_sub_cancel_left] at this
    rw [List.getElem?_map, this, List.getElem?_drop, List.getElem?_map, List.getElem?_eq_getElem hq]; rfl
  · rw [List.getElem?_eq_none (by rw [List.length_map, h.1]; omega), List.getElem?_eq_none (by simp; omega)]

theorem outRows_spec [Mul α] {p : Params} {k : TimeKind} {X₀ X : Frame α} {f : Fitted} (hf : fit p k X₀ = .ok f) (w : Option (Nat → α))
    (hv : Valid X.rows) (hr : Rect f.cols.length X.rows) :
    Valid (outRows f w X) ∧
    (∀ i, series (outRows f w X) i = takensSeries f.delays (kappaVec w f.delays.length f.cols.length)
      ((content X.rows i).map (fun q => ⟨i, q.1, q.2⟩))) ∧
    (∀ i, IsEmbedding p.lag.toNat p.delays.toNat p.frequency.toNat (scaleOf w) (content X.rows i) (content (outRows f w X) i)) := by
  obtain ⟨hd, hn, hm, hcols, hdelta⟩ := fit_delays hf
  have hspec : ∀ i, (∀ r ∈ takensSeries f.delays (kappaVec w f.delays.length f.cols.length)
      ((content X.rows i).map (fun q => ⟨i, q.1, q.2⟩)), r.id = i) ∧
      IsEmbedding p.lag.toNat p.delays.toNat p.frequency.toNat (scaleOf w) (content X.rows i)
        ((takensSeries f.delays (kappaVec w f.delays.length f.cols.length)
      ((content X.rows i).map (fun q => ⟨i, q.1, q.2⟩))).map (fun r => (r.time, r.val))) := by
    intro i
    have := takensSeries_spec p.lag.toNat p.delays.toNat p.frequency.toNat f.cols.length hn w i (content X.rows i) (by
      intro q hq
      obtain ⟨r, hrm, rfl⟩ := List.mem_map.1 hq
      exact hr r (mem_series.1 hrm).1)
    rw [hd]; simpa using this
  have hser : ∀ i, series (outRows f w X) i = takensSeries f.delays (kappaVec w f.delays.length f.cols.length)
      ((content X.rows i).map (fun q => ⟨i, q.1, q.2⟩)) := by
    intro i
    unfold outRows
    rw [series_flatMap (ids_nodup _) _ (fun j _ => (hspec j).1)]
    split
    · rfl
    · rename_i hi
      have : series X.rows i = [] := by rw [series_eq_nil, ← mem_ids']; exact hi
      have hc : content X.rows i = [] := by simp [content, this]
      rw [hc]; simp [takensSeries]
  refine ⟨?_, hser, ?_⟩
  · unfold outRows
    refine valid_flatMap (ids_nodup _) _ (fun j _ => (hspec j).1) ?_
    intro i _
    have ht := (hspec i).2.times
    rw [List.map_map] at ht
    have hs := (hv.series_sorted i)
    rw [← List.pairwise_map (f := fun r : Row Int (List α) => r.time)]
    have e : (takensSeries f.delays (kappaVec w f.delays.length f.cols.length) ((content X.rows i).map (fun q => ⟨i, q.1, q.2⟩))).map (fun r => r.time)
        = ((series X.rows i).map (fun r => r.time)).drop (largestDelay p.lag.toNat p.delays.toNat p.frequency.toNat) := by
      rw [show (fun r : Row Int (List α) => r.time) = ((fun q : Int × List α => q.1) ∘ fun r => (r.time, r.val)) from rfl, ht]
      simp [content]
    rw [e]
    exact (List.pairwise_map.2 hs).sublist (List.drop_sublist _ _)
  · intro i
    have := (hspec i).2
    rw [← hser i] at this
    exact this

/-- **C18.** Let `fit` with parameters `p` have succeeded on some collection and let `transform` succeed on `X`.  Then the result is a valid collection; every
time series of it is the delay embedding (`IsEmbedding`) of the series of `X` with the same ID (so series are never mixed); the columns are labelled `c` and
`c:d{delay}` in the same order as the values. -/
theorem C18_takens [Mul α] {p : Params} {k : TimeKind} {X₀ X Y : Frame α} {f : Fitted} {w : Option (Nat → α)} (hf : fit p k X₀ = .ok f)
    (hv : Valid X.rows) (hr : Rect X.cols.length X.rows) (h : transform f w k X = .ok Y) :
    Valid Y.rows ∧
    (∀ i, IsEmbedding p.lag.toNat p.delays.toNat p.frequency.toNat (scaleOf w) (content X.rows i) (content Y.rows i)) ∧
    Y.cols = X.cols ++ (List.range p.delays.toNat).flatMap (fun k =>
      X.cols.map (fun c => c ++ ":d" ++ toString (delay p.lag.toNat p.frequency.toNat k))) := by
  rw [transform_eq] at h
  obtain ⟨-, -, h3, -, h5, h6⟩ := h
  rw [h3] at hr
  have hs := outRows_spec hf w hv hr
  rw [build_ok_iff] at h5
  rw [← h5.1]
  refine ⟨hs.1, hs.2.2, ?_⟩
  rw [h6, (fit_delays hf).1, h3]
  unfold featureNamesOut
  rw [List.map_map, List.flatMap_def]
  rfl

/-- **C18 (accepted inputs).** `transform` succeeds iff the time delta is the one seen in `fit`, the columns are those of `fit`, every series has more than
`largestDelay` samples, and the labels of the result are distinct; in particular a series with at most `largestDelay` samples raises. -/
theorem C18_accepts [Mul α] {p : Params} {k : TimeKind} {X₀ X : Frame α} {f : Fitted} (w : Option (Nat → α)) (hf : fit p k X₀ = .ok f)
    (hne : X.rows ≠ []) (hv : Valid X.rows) (hr : Rect X.cols.length X.rows) :
    (∃ Y, transform f w k X = .ok Y) ↔
      (deltaTime k X.rows = deltaTime k X₀.rows ∧ X.cols = X₀.cols ∧ (∀ i, HasId X.rows i → lost p < (series X.rows i).length) ∧
        (featureNamesOut X₀.cols (delayIndices p)).Nodup) := by
  obtain ⟨hd, hn, hm, hcols, hdelta⟩ := fit_delays hf
  have hde := (fit_ok hf).2.1
  have hmin : checkMinTimesteps X.rows (maxDelay f.delays + 1 : Nat) = true ↔ ∀ i, HasId X.rows i → lost p < (series X.rows i).length := by
    rw [checkMinTimesteps_iff hne, hm]
    constructor <;> intro h i hi <;> have := h i hi <;> omega
  constructor
  · rintro ⟨Y, h⟩
    rw [transform_eq, hmin, hdelta, hcols] at h
    refine ⟨h.1, h.2.2.1, h.2.1, ?_⟩
    have := h.2.2.2.1
    rw [hde] at this; exact this
  · rintro ⟨h1, h2, h3, h4⟩
    refine ⟨⟨featureNamesOut f.cols f.delays, outRows f w X⟩, ?_⟩
    rw [transform_eq, hmin, hdelta, hcols]
    refine ⟨h1, h3, h2, ?_, ?_, rfl⟩
    · rw [hde]; exact h4
    · have hs := outRows_spec hf w hv (by rw [hcols, ← h2]; exact hr)
      refine build_ok_of_valid hs.1 ?_
      obtain ⟨r, hr'⟩ := List.exists_mem_of_ne_nil _ hne
      have hid : HasId X.rows r.id := ⟨r, hr', rfl⟩
      have hl := (hs.2.2 r.id).1
      have h3' := h3 _ hid
      intro e
      rw [e] at hl
      simp [content, series] at hl
      unfold lost at h3'
      simp only [series] at h3'
      omega

/-- The weight vector of `kappa` in exact arithmetic (transform.py 778-786). -/
noncomputable def kappaWeights (κ : ℝ) : Option (Nat → ℝ) := if 0 < κ then some (fun k => Real.exp (-κ * k)) else none

/-- **C18 (weights).** For every `kappa ≥ 0`, delay number `k` (from 0) is multiplied by `exp(-kappa (k+1))`; for `kappa = 0` the values are unchanged. -/
theorem C18_kappa (κ : ℝ) (h : 0 ≤ κ) (k : Nat) (x : ℝ) : scaleOf (kappaWeights κ) k x = x * Real.exp (-κ * (k + 1)) := by
  unfold kappaWeights scaleOf
  rcases h.lt_or_eq with h | rfl
  · simp [h]
  · simp

/-- A concrete case: IDs out of order, `lag = 1`, two delays, frequency 2, so delays 2 and 4. -/
def exFrame : Frame Int := ⟨["x", "y"], [⟨7, 0, [1, 2]⟩, ⟨7, 3, [3, 4]⟩, ⟨7, 6, [5, 6]⟩, ⟨7, 9, [7, 8]⟩, ⟨7, 12, [9, 10]⟩, ⟨7, 15, [11, 12]⟩,
  ⟨2, 30, [0, 1]⟩, ⟨2, 33, [0, 2]⟩, ⟨2, 36, [0, 3]⟩, ⟨2, 39, [0, 4]⟩, ⟨2, 42, [0, 5]⟩]⟩

example : (fit ⟨1, 2, 2⟩ .int exFrame).toOption.bind (fun f => (transform f (some (fun k => (k : Int))) .int exFrame).toOption) =
    some ⟨["x", "y", "x:d2", "y:d2", "x:d4", "y:d4"], [⟨2, 42, [0, 5, 0, 3, 0, 2]⟩, ⟨7, 12, [9, 10, 5, 6, 2, 4]⟩, ⟨7, 15, [11, 12, 7, 8, 6, 8]⟩]⟩ := by
  decide +kernel

/-- **C19.** `inverse_transform(transform(X))` succeeds, has the columns of `X`, and every series is the series of `X` without its first `largestDelay` samples. -/
theorem C19_round_trip [Mul α] [Inhabited α] {p : Params} {k : TimeKind} {X₀ X Y : Frame α} {f : Fitted} {w : Option (Nat → α)} (hf : fit p k X₀ = .ok f)
    (hv : Valid X.rows) (hr : Rect X.cols.length X.rows) (h : transform f w k X = .ok Y) :
    ∃ Z, inverseTransform f Y = .ok Z ∧ Z.cols = X.cols ∧ Valid Z.rows ∧
      ∀ i, content Z.rows i = (content X.rows i).drop (lost p) := by
  have hC := C18_takens hf hv hr h
  have ht := (transform_eq _ _ _ _ _).1 h
  obtain ⟨-, -, h3, h4, -, h6⟩ := ht
  have hinv : inverseTransform f Y = .ok (locCols Y f.cols) := by simp [inverseTransform, h6]
  refine ⟨_, hinv, h3.symm, ?_, ?_⟩
  · -- same index as Y
    have hYv := hC.1
    rw [valid_iff] at hYv ⊢
    simp only [locCols, List.map_map]
    refine ⟨?_, ?_⟩
    · simpa [Function.comp_def] using hYv.1
    · rw [List.pairwise_map]; exact hYv.2.imp (by intro a b hab; exact hab)
  · intro i
    have hE := hC.2.1 i
    -- selecting the first columns of a row
    have hsel : ∀ (a b : List α), a.length = f.cols.length → f.cols.map (fun n => (a ++ b).getD (Y.cols.idxOf n) default) = a := by
      intro a b ha
      apply List.ext_getElem
      · simp [ha]
      · intro q h1 h2
        have hq : q < f.cols.length := by omega
        rw [List.getElem_map]
        have hidx : Y.cols.idxOf f.cols[q] = q := by
          rw [h6]; unfold featureNamesOut
          unfold featureNamesOut at h4
          rw [List.idxOf_append_of_mem (List.getElem_mem _)]
          exact (List.nodup_append.1 h4).1.idxOf_getElem q hq
        rw [hidx, List.getD_eq_getElem?_getD, List.getElem?_append_left h2, List.getElem?_eq_getElem h2]; rfl
    have hcont : content (locCols Y f.cols).rows i =
        (content Y.rows i).map (fun q => (q.1, f.cols.map (fun n => q.2.getD (Y.cols.idxOf n) default))) := by
      simp only [content, series, locCols, List.filter_map, List.map_map]
      rfl
    rw [hcont]
    apply List.ext_getElem?
    intro q
    by_cases hq : lost p + q < (content X.rows i).length
    · have := hE.2 (lost p + q) (by unfold lost; omega) hq
      have e : lost p + q - largestDelay p.lag.toNat p.delays.toNat p.frequency.toNat = q := by unfold lost; omega
      rw [e] at this
      rw [List.getElem?_map, this, List.getElem?_drop, List.getElem?_eq_getElem hq, Option.map_some]
      congr 1
      have hmem := List.getElem_mem hq
      obtain ⟨r, hrm, hre⟩ := List.mem_map.1 hmem
      refine Prod.ext rfl ?_
      simp only
      rw [hsel]
      rw [← hre, ← h3]; exact hr r (mem_series.1 hrm).1
    · rw [List.getElem?_eq_none (by rw [List.length_map, hE.1]; unfold lost at hq; omega), List.getElem?_eq_none (by simp; omega)]

example : (fit ⟨1, 2, 2⟩ .int exFrame).toOption.bind (fun f => (transform f (some (fun k => (k : Int))) .int exFrame).toOption.bind
    (fun Y => (inverseTransform f Y).toOption)) =
    some ⟨["x", "y"], [⟨2, 42, [0, 5]⟩, ⟨7, 12, [9, 10]⟩, ⟨7, 15, [11, 12]⟩]⟩ := by
  decide +kernel

end Verif.Takens
