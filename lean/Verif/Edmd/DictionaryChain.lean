import Verif.Edmd.Dictionary
import Verif.Transform.TakensProps
import Verif.Transform.MovingAverageProps
import Verif.Tsc.MapVal
import Verif.Tsc.CheckProps
import Verif.Edmd.WindowProps
/-! # What a step of the dictionary does, and chains of steps -/

namespace Verif.Dict

open Verif.Tsc Verif.Np Verif.Takens Verif.Utils

variable {α : Type}

/-! ## Specification -/

/-- The series in which sample `q` is the value of `φ` on the `m` samples `q, ..., q + m - 1` of `s`, at the time value of the last one of them. -/
def causal (m : Nat) (φ : List (List α) → List α) (s : List (Int × List α)) : List (Int × List α) :=
  (List.range (s.length + 1 - m)).map (fun q => ((s.map (·.1)).getD (q + m - 1) 0, φ (((s.map (·.2)).drop q).take m)))

/-- A valid collection with the sampling interval `d` (a series may have a single sample). -/
structure Good (d : Int) (X : Frame α) : Prop where
  ne : X.rows ≠ []
  valid : Valid X.rows
  rect : Rect X.cols.length X.rows
  spaced : ∀ i, ∀ p ∈ consecutive (timesOf X.rows i), p.2 - p.1 = d
  bound : d < 3 * 10 ^ 11

/-- Every series has at least `m` samples. -/
def MinLength (m : Nat) (X : Frame α) : Prop := ∀ i, HasId X.rows i → m ≤ (series X.rows i).length

/-- The transformer maps collections with the columns `cols` and at least `m` samples per series; each sample of the result is computed by `φ` from the last `m` samples of the same series. -/
def Causal (d : Int) (m : Nat) (cols colsOut : List String) (φ : List (List α) → List α) (T : Transformer α) : Prop :=
  ∀ X, Good d X → X.cols = cols → MinLength m X →
    ∃ Y, T X = .ok Y ∧ Good d Y ∧ Y.cols = colsOut ∧ (∀ i, HasId Y.rows i ↔ HasId X.rows i) ∧ ∀ i, content Y.rows i = causal m φ (content X.rows i)

/-- Whatever it is fitted to, the step gives a transformer with memory of `m` samples. -/
def CausalStep (s : Step α) (m : Nat) : Prop :=
  1 ≤ m ∧ ∀ d X T Y, Good d X → MinLength m X → s X = .ok T → T X = .ok Y → ∃ φ colsOut, Causal d m X.cols colsOut φ T

/-- The step keeps the states: its first columns are those of the data and have the values of the current sample. -/
def KeepStep (s : Step α) (m : Nat) : Prop :=
  1 ≤ m ∧ ∀ d X T Y, Good d X → MinLength m X → s X = .ok T → T X = .ok Y →
    ∃ (ψ : List (List α) → List α) (rest : List String), (X.cols ++ rest).Nodup ∧ Causal d m X.cols (X.cols ++ rest) (fun w => w.getD (m - 1) [] ++ ψ w) T

/-- Collections with a series of fewer than `m` samples raise in `transform`. -/
def RejectStep (s : Step α) (m : Nat) : Prop :=
  ∀ d X T, Good d X → s X = .ok T → ∀ Y, Good d Y → Y.cols = X.cols → (∃ i, HasId Y.rows i ∧ (series Y.rows i).length < m) → ∃ e, T Y = .error e

/-- The number of samples a chain of memories looks at. -/
def memory (ms : List Nat) : Nat := 1 + (ms.map (· - 1)).sum

/-! ## Lemmas -/

@[simp] theorem causal_length (m : Nat) (φ : List (List α) → List α) (s : List (Int × List α)) : (causal m φ s).length = s.length + 1 - m := by simp [causal]

theorem causal_getElem? {m : Nat} {φ : List (List α) → List α} {s : List (Int × List α)} {q : Nat} (hq : q < s.length + 1 - m) :
    (causal m φ s)[q]? = some ((s.map (·.1)).getD (q + m - 1) 0, φ (((s.map (·.2)).drop q).take m)) := by
  unfold causal
  rw [List.getElem?_map, List.getElem?_range hq]
  rfl

theorem causal_times {m : Nat} (hm : 1 ≤ m) (φ : List (List α) → List α) (s : List (Int × List α)) : (causal m φ s).map (·.1) = (s.map (·.1)).drop (m - 1) := by
  apply List.ext_getElem
  · simp; omega
  · intro q h1 h2
    have : q + m - 1 = m - 1 + q := by omega
    have h3 : m - 1 + q < s.length := by simp at h2; omega
    simp [causal, this, h3]

/-- The values that `causal` computes. -/
def causalVals (m : Nat) (φ : List (List α) → List α) (w : List (List α)) : List (List α) := (List.range (w.length + 1 - m)).map (fun q => φ ((w.drop q).take m))

theorem causal_vals (m : Nat) (φ : List (List α) → List α) (s : List (Int × List α)) : (causal m φ s).map (·.2) = causalVals m φ (s.map (·.2)) := by
  simp [causal, causalVals, Function.comp_def]

/-- Two memories in a row. -/
theorem causal_comp {m1 m2 : Nat} (h1 : 1 ≤ m1) (h2 : 1 ≤ m2) (φ1 φ2 : List (List α) → List α) (s : List (Int × List α)) :
    causal m2 φ2 (causal m1 φ1 s) = causal (m1 + m2 - 1) (fun w => φ2 (causalVals m1 φ1 w)) s := by
  apply List.ext_getElem?
  intro q
  by_cases hq : q < s.length + 1 - (m1 + m2 - 1)
  · rw [causal_getElem? (by simp; omega), causal_getElem? hq, causal_times h1, causal_vals]
    congr 2
    · simp only [List.getD_eq_getElem?_getD, List.getElem?_drop]
      congr 2
      omega
    · congr 1
      apply List.ext_getElem
      · simp [causalVals]; omega
      · intro j h3 h4
        simp only [causalVals, List.getElem_take, List.getElem_drop, List.getElem_map, List.getElem_range]
        congr 1
        rw [List.drop_take, List.take_take, List.drop_drop]
        congr 1
        have : j < m2 := by simp at h3; omega
        omega
  · rw [List.getElem?_eq_none (by simp; omega), List.getElem?_eq_none (by simp; omega)]

theorem hasId_content {c : List (Row Int (List α))} {i : Nat} : HasId c i ↔ content c i ≠ [] := by
  rw [hasId_iff_series]; simp [content]

theorem content_times (c : List (Row Int (List α))) (i : Nat) : (content c i).map (·.1) = timesOf c i := by simp [content, timesOf, Function.comp_def]

theorem causal_hasId {m : Nat} {φ : List (List α) → List α} (hm : 1 ≤ m) {X : Frame α} (hl : MinLength m X) {c : List (Row Int (List α))}
    (hc : ∀ i, content c i = causal m φ (content X.rows i)) (i : Nat) : HasId c i ↔ HasId X.rows i := by
  rw [hasId_content, hasId_content, hc, ← List.length_pos_iff, ← List.length_pos_iff, causal_length]
  constructor
  · intro h; omega
  · intro h
    have := hl i (hasId_content.2 (List.length_pos_iff.1 h))
    have hcl : (content X.rows i).length = (series X.rows i).length := by simp [content]
    omega

theorem drop_consecutive {l : List Int} {a : Nat} {p : Int × Int} (h : p ∈ consecutive (l.drop a)) : p ∈ consecutive l :=
  Edmd.consecutive_take_drop (a := a) (b := l.length) (by rwa [List.take_of_length_le (by simp)])

theorem good_of_causal {d : Int} {m : Nat} {φ : List (List α) → List α} (hm : 1 ≤ m) {X Y : Frame α} (hX : Good d X) (hl : MinLength m X) (hv : Valid Y.rows)
    (hr : Rect Y.cols.length Y.rows) (hc : ∀ i, content Y.rows i = causal m φ (content X.rows i)) : Good d Y := by
  refine ⟨?_, hv, hr, ?_, hX.bound⟩
  · obtain ⟨i, hi⟩ := Edmd.exists_hasId hX.ne
    obtain ⟨r, hr, -⟩ := (causal_hasId hm hl hc i).2 hi
    exact List.ne_nil_of_mem hr
  · intro i p hp
    rw [← content_times, hc, causal_times hm, content_times] at hp
    exact hX.spaced i p (drop_consecutive hp)

theorem Good.moderate {d : Int} {X : Frame α} (h : Good d X) : ModerateSteps X.rows := by
  intro i p hp
  rw [h.spaced i p hp]; exact h.bound

theorem Good.regular {d : Int} {X : Frame α} (h : Good d X) {m : Nat} (hm : 2 ≤ m) (hl : MinLength m X) : ∀ i, HasId X.rows i → Regular (timesOf X.rows i) d := by
  intro i hi
  refine ⟨?_, h.spaced i⟩
  have := hl i hi
  simp [timesOf]; omega

/-- The rows of a collection that is computed series by series. -/
theorem blocks {X : Frame α} (hv : Valid X.rows) {m : Nat} (hm : 1 ≤ m) (φ : List (List α) → List α) :
    Valid ((ids X.rows).flatMap (fun i => (causal m φ (content X.rows i)).map (fun q => (⟨i, q.1, q.2⟩ : Row Int (List α))))) ∧
      ∀ i, content ((ids X.rows).flatMap (fun i => (causal m φ (content X.rows i)).map (fun q => (⟨i, q.1, q.2⟩ : Row Int (List α))))) i = causal m φ (content X.rows i) := by
  have hid : ∀ i, ∀ r ∈ (causal m φ (content X.rows i)).map (fun q => (⟨i, q.1, q.2⟩ : Row Int (List α))), r.id = i := by
    intro i r hr
    obtain ⟨q, -, rfl⟩ := List.mem_map.1 hr; rfl
  constructor
  · refine valid_flatMap (ids_nodup _) _ (fun j _ => hid j) ?_
    intro i _
    rw [← List.pairwise_map (f := fun r : Row Int (List α) => r.time)]
    have e : ((causal m φ (content X.rows i)).map (fun q => (⟨i, q.1, q.2⟩ : Row Int (List α)))).map (fun r => r.time) = (timesOf X.rows i).drop (m - 1) := by
      rw [List.map_map, ← content_times, ← causal_times hm φ]
      rfl
    rw [e]
    have := hv.series_sorted i
    rw [← List.pairwise_map (f := fun r : Row Int (List α) => r.time)] at this
    exact this.drop
  · intro i
    have hs := series_flatMap (j := i) (ids_nodup X.rows) (fun i => (causal m φ (content X.rows i)).map (fun q => (⟨i, q.1, q.2⟩ : Row Int (List α)))) (fun j _ => hid j)
    rw [content, hs]
    split
    · rw [List.map_map]; exact List.map_id _
    · rename_i hi
      have : series X.rows i = [] := by rw [series_eq_nil, ← mem_ids']; exact hi
      have h1 : 1 - m = 0 := by omega
      simp [causal, content, this, h1]

/-! ## The transformers -/

theorem rowTransform_ok {d : Int} {g : List α → List α} {cols out : List String} {Z : Frame α} (hZ : Good d Z) (hc : Z.cols = cols) (hn : out.Nodup) :
    rowTransform g cols out Z = .ok ⟨out, mapVal g Z.rows⟩ := by
  have hb := build_ok_of_valid (mapVal_valid.2 hZ.valid : Valid (mapVal g Z.rows)) (mapVal_ne_nil.2 hZ.ne)
  unfold mapVal at hb
  unfold rowTransform
  rw [if_neg (by simpa using hc), if_neg (by simpa using hn), hb]
  rfl

/-- A row-wise transformer computes each sample from the current one. -/
theorem row_formula (g : Frame α → List α → List α) (names : List String → List String)
    (hg : ∀ X v, v.length = X.cols.length → (g X v).length = (names X.cols).length) (d : Int) (X : Frame α) (hn : (names X.cols).Nodup) :
    Causal d 1 X.cols (names X.cols) (fun w => g X (w.headD [])) (rowTransform (g X) X.cols (names X.cols)) := by
  intro Z hZ hc hl
  have hv : Valid (mapVal (g X) Z.rows) := mapVal_valid.2 hZ.valid
  have hcont : ∀ i, content (mapVal (g X) Z.rows) i = causal 1 (fun w => g X (w.headD [])) (content Z.rows i) := by
    intro i
    rw [mapVal_content]
    apply List.ext_getElem
    · simp
    · intro q h1 h2
      have hq : q < (content Z.rows i).length := by simpa using h1
      simp only [causal, List.getElem_map, List.getElem_range, Nat.add_sub_cancel]
      congr 1
      · simp [hq]
      · congr 1
        rw [List.drop_eq_getElem_cons (by simpa using hq)]
        simp
  have hrect : Rect (names X.cols).length (mapVal (g X) Z.rows) := by
    intro r hr
    obtain ⟨x, hx, rfl⟩ := List.mem_map.1 hr
    exact hg X x.val (by rw [hZ.rect x hx, hc])
  refine ⟨⟨names X.cols, mapVal (g X) Z.rows⟩, ?_, good_of_causal (φ := fun w => g X (w.headD [])) le_rfl hZ hl hv hrect hcont, rfl, ?_, hcont⟩
  · exact rowTransform_ok hZ hc hn
  · intro i; exact mapVal_hasId

/-- Row-wise transformers have no memory. -/
theorem row_causal (g : Frame α → List α → List α) (names : List String → List String)
    (hg : ∀ X v, v.length = X.cols.length → (g X v).length = (names X.cols).length) : CausalStep (rowStep g names) 1 := by
  refine ⟨le_rfl, ?_⟩
  intro d X T Y hX _ hT hY
  unfold rowStep at hT
  simp only [Except.ok.injEq] at hT
  subst hT
  have hn : (names X.cols).Nodup := by
    by_contra h
    simp [rowTransform, h] at hY
  exact ⟨fun w => g X (w.headD []), names X.cols, row_formula g names hg d X hn⟩

/-- What the Takens embedding computes from the last `lost p + 1` samples: the current one, followed by the delayed ones. -/
def takensFormula [Mul α] (p : Params) (w : Option (Nat → α)) (ws : List (List α)) : List α :=
  ws.getD (lost p) [] ++ (List.range p.delays.toNat).flatMap (fun k => (ws.getD (lost p - delay p.lag.toNat p.frequency.toNat k) []).map (scaleOf w k))

/-- The Takens embedding looks back by its largest delay. -/
theorem takens_formula [Mul α] (p : Params) (w : Option (Nat → α)) {d : Int} {X Y : Frame α} {T : Transformer α} (hX : Good d X) (hl : MinLength (lost p + 1) X)
    (hT : takensStep p w X = .ok T) (hY : T X = .ok Y) :
    ∃ rest : List String, (X.cols ++ rest).Nodup ∧ Causal d (lost p + 1) X.cols (X.cols ++ rest) (takensFormula p w) T := by
  unfold takensStep at hT
  cases hf : Takens.fit p .int X with
  | error e => rw [hf] at hT; simp at hT
  | ok f =>
    rw [hf] at hT
    simp only [Except.ok.injEq] at hT
    subst hT
    have hlost : 1 ≤ lost p := by unfold lost largestDelay delay; omega
    have hacc : ∃ Z, Takens.transform f w .int X = .ok Z := by
      cases h : Takens.transform f w .int X with
      | ok Z => exact ⟨Z, rfl⟩
      | error e => simp only [h] at hY; simp at hY
    rw [C18_accepts w hf hX.ne hX.valid hX.rect] at hacc
    have hfd := fit_delays hf
    refine ⟨(f.delays.map (fun d => X.cols.map (fun c => c ++ ":d" ++ toString d))).flatten, ?_, ?_⟩
    · have := hacc.2.2.2
      have hde := (fit_ok hf).2.1
      rw [hde]
      exact this
    show Causal d (lost p + 1) X.cols (featureNamesOut X.cols f.delays) _ _
    intro Z hZ hc hlz
    have hdelta : deltaTime .int Z.rows = deltaTime .int X.rows := by
      rw [C11_regular hZ.ne hZ.valid .int (hZ.regular (by omega) hlz), C11_regular hX.ne hX.valid .int (hX.regular (by omega) hl)]
    obtain ⟨Y', hY'⟩ := (C18_accepts w hf hZ.ne hZ.valid hZ.rect).2 ⟨hdelta, hc, fun i hi => by have := hlz i hi; omega, hacc.2.2.2⟩
    obtain ⟨hv, hemb, hcols⟩ := C18_takens hf hZ.valid hZ.rect hY'
    have hcont : ∀ i, content Y'.rows i = causal (lost p + 1) (takensFormula p w) (content Z.rows i) := by
      intro i
      obtain ⟨h1, h2⟩ := hemb i
      have hlen : (content Y'.rows i).length = (content Z.rows i).length + 1 - (lost p + 1) := by rw [h1]; unfold lost; omega
      apply List.ext_getElem?
      intro q
      by_cases hq : q < (content Z.rows i).length + 1 - (lost p + 1)
      · rw [causal_getElem? hq]
        have hj : lost p + q < (content Z.rows i).length := by omega
        have := h2 (lost p + q) (by unfold lost; omega) hj
        rw [show lost p + q - largestDelay p.lag.toNat p.delays.toNat p.frequency.toNat = q by unfold lost; omega] at this
        rw [this]
        congr 2
        · rw [show q + (lost p + 1) - 1 = lost p + q by omega]
          simp [hj]
        · unfold takensFormula
          congr 1
          · simp only [List.getD_eq_getElem?_getD]
            rw [List.getElem?_take_of_lt (by omega), List.getElem?_drop, show q + lost p = lost p + q by omega]
            simp [hj]
          · apply List.flatMap_congr
            intro k hk
            congr 1
            simp only [List.getD_eq_getElem?_getD]
            have hdk : delay p.lag.toNat p.frequency.toNat k ≤ lost p := by
              unfold lost largestDelay delay
              have := Nat.mul_le_mul_right p.frequency.toNat (show k ≤ p.delays.toNat - 1 by have := List.mem_range.1 hk; omega)
              omega
            rw [List.getElem?_take_of_lt (by omega), List.getElem?_drop, show q + (lost p - delay p.lag.toNat p.frequency.toNat k) = lost p + q - delay p.lag.toNat p.frequency.toNat k by omega]
            have : lost p + q - delay p.lag.toNat p.frequency.toNat k < (content Z.rows i).length := by omega
            simp [this]
      · rw [List.getElem?_eq_none (by omega), List.getElem?_eq_none (by simp; omega)]
    have hYc := ((transform_eq f w .int Z Y').1 hY').2.2.2.2.2
    have hfc := (fit_delays hf).2.2.2.1
    have hrect : Rect Y'.cols.length Y'.rows := by
      intro r hr
      have hmem : (r.time, r.val) ∈ content Y'.rows r.id := List.mem_map.2 ⟨r, mem_series.2 ⟨hr, rfl⟩, rfl⟩
      rw [hcont] at hmem
      obtain ⟨q, hq, he⟩ := List.mem_map.1 hmem
      have hq := List.mem_range.1 hq
      have hv2 := congrArg Prod.snd he
      simp only at hv2
      have hwl : ∀ j, j ≤ lost p → ((List.take (lost p + 1) (List.drop q (List.map (fun x => x.2) (content Z.rows r.id)))).getD j []).length = Z.cols.length := by
        intro j hj
        have hjj : q + j < (content Z.rows r.id).length := by omega
        rw [List.getD_eq_getElem?_getD, List.getElem?_take_of_lt (by omega), List.getElem?_drop, List.getElem?_map, List.getElem?_eq_getElem hjj]
        simp only [Option.map_some, Option.getD_some]
        obtain ⟨x, hx, hxe⟩ := List.mem_map.1 (List.getElem_mem hjj)
        rw [← hxe]
        exact hZ.rect x (mem_series.1 hx).1
      rw [← hv2, hcols, takensFormula, List.length_append, hwl _ le_rfl, List.length_append, List.length_flatMap, List.length_flatMap]
      congr 2
      apply List.map_congr_left
      intro k _
      rw [List.length_map, hwl _ (by omega), List.length_map]
    refine ⟨Y', ?_, good_of_causal (by omega) hZ hlz hv hrect hcont, by rw [hYc, hfc], causal_hasId (by omega) hlz hcont, hcont⟩
    simp only [hY']

theorem takens_keeps [Mul α] (p : Params) (w : Option (Nat → α)) : KeepStep (takensStep p w) (lost p + 1) := by
  refine ⟨by omega, ?_⟩
  intro d X T Y hX hl hT hY
  obtain ⟨rest, hn, hc⟩ := takens_formula p w hX hl hT hY
  exact ⟨fun ws => (List.range p.delays.toNat).flatMap (fun k => (ws.getD (lost p - delay p.lag.toNat p.frequency.toNat k) []).map (scaleOf w k)), rest, hn, hc⟩

theorem KeepStep.causal {s : Step α} {m : Nat} (h : KeepStep s m) : CausalStep s m := by
  refine ⟨h.1, fun d X T Y hX hl hT hY => ?_⟩
  obtain ⟨ψ, rest, -, hc⟩ := h.2 d X T Y hX hl hT hY
  exact ⟨_, _, hc⟩

theorem takens_causal [Mul α] (p : Params) (w : Option (Nat → α)) : CausalStep (takensStep p w) (lost p + 1) := (takens_keeps p w).causal

/-- The moving average over `w ≥ 2` samples. -/
theorem average_causal [DivisionRing α] {w : Int} (hw : 2 ≤ w) : CausalStep (averageStep (α := α) w) w.toNat := by
  refine ⟨by omega, ?_⟩
  intro d X T Y hX hl hT hY
  unfold averageStep at hT
  simp only [Except.ok.injEq] at hT
  subst hT
  refine ⟨fun ws => (Transform.sumRows ws).map (fun x => x / (w.toNat : α)), X.cols.map (fun c => c ++ "_ma" ++ toString w.toNat), ?_⟩
  intro Z hZ hc hlz
  have hconst : isConstDeltaTime .int Z.rows = true := (isConstDelta_iff hZ.ne hZ.valid hZ.moderate).2 ⟨d, hZ.regular (by omega) hlz⟩
  obtain ⟨hv, hcont⟩ := blocks hZ.valid (m := w.toNat) (by omega) (fun ws => (Transform.sumRows ws).map (fun x => x / (w.toNat : α)))
  have hrows : (itertimeseries Z.rows).flatMap (fun p => (Transform.rollingMean w.toNat p.2).map (fun q => (⟨p.1, q.1, q.2⟩ : Row Int (List α)))) =
      (ids Z.rows).flatMap (fun i => (causal w.toNat (fun ws => (Transform.sumRows ws).map (fun x => x / (w.toNat : α))) (content Z.rows i)).map (fun q => (⟨i, q.1, q.2⟩ : Row Int (List α)))) := by
    unfold itertimeseries; rw [List.flatMap_map]; rfl
  set rows := (ids Z.rows).flatMap (fun i => (causal w.toNat (fun ws => (Transform.sumRows ws).map (fun x => x / (w.toNat : α))) (content Z.rows i)).map (fun q => (⟨i, q.1, q.2⟩ : Row Int (List α)))) with hrdef
  have hne : rows ≠ [] := by
    obtain ⟨i, hi⟩ := Edmd.exists_hasId hZ.ne
    obtain ⟨r, hr, -⟩ := (causal_hasId (by omega) hlz hcont i).2 hi
    exact List.ne_nil_of_mem hr
  have hma : Transform.movingAverage w .int Z = .ok ⟨Z.cols.map (fun c => c ++ "_ma" ++ toString w.toNat), rows⟩ := by
    unfold Transform.movingAverage
    have hlen : ¬ Z.rows.length < w.toNat := by
      obtain ⟨i, hi⟩ := Edmd.exists_hasId hZ.ne
      have h1 := hlz i hi
      have h2 : (series Z.rows i).length ≤ Z.rows.length := List.length_filter_le _ _
      omega
    rw [if_neg (by omega), if_neg hlen, hconst, hrows, build_ok_of_valid hv hne]
    simp
  have hrect : Rect (X.cols.map (fun c => c ++ "_ma" ++ toString w.toNat)).length rows := by
    intro r hr
    have hmem : (r.time, r.val) ∈ content rows r.id := List.mem_map.2 ⟨r, mem_series.2 ⟨hr, rfl⟩, rfl⟩
    rw [hcont] at hmem
    obtain ⟨q, hq, he⟩ := List.mem_map.1 hmem
    have hq := List.mem_range.1 hq
    have hv2 := congrArg Prod.snd he
    simp only at hv2
    rw [← hv2, List.length_map, List.length_map]
    apply Transform.sumRows_length
    · intro e
      have := congrArg List.length e
      simp at this
      omega
    · intro a ha
      have := List.mem_of_mem_drop (List.mem_of_mem_take ha)
      obtain ⟨p, hp, rfl⟩ := List.mem_map.1 this
      obtain ⟨x, hx, rfl⟩ := List.mem_map.1 hp
      rw [← hc]
      exact hZ.rect x (mem_series.1 hx).1
  refine ⟨⟨X.cols.map (fun c => c ++ "_ma" ++ toString w.toNat), rows⟩, ?_, good_of_causal (by omega) hZ hlz hv hrect hcont, rfl, causal_hasId (by omega) hlz hcont, hcont⟩
  simp only [hma, hc]
  simp

/-! ## The chain of the steps -/

theorem memory_cons {m : Nat} (hm : 1 ≤ m) (ms : List Nat) : memory (m :: ms) = m + memory ms - 1 := by
  unfold memory; rw [List.map_cons, List.sum_cons]; omega

theorem memory_pos (ms : List Nat) : 1 ≤ memory ms := by unfold memory; omega

theorem causal_one (s : List (Int × List α)) : causal 1 (fun w => w.headD []) s = s := by
  apply List.ext_getElem
  · simp
  · intro q h1 h2
    simp only [causal, List.getElem_map, List.getElem_range, Nat.add_sub_cancel]
    rw [List.drop_eq_getElem_cons (by simpa using h2)]
    simp [h2]

theorem content_length (c : List (Row Int (List α))) (i : Nat) : (content c i).length = (series c i).length := by simp [content]

/-- The transformers of an accepted `fit`, one after the other. -/
theorem fitSteps_causal {d : Int} {steps : List (Step α)} {ms : List Nat} (hs : List.Forall₂ CausalStep steps ms) :
    ∀ {X : Frame α} {Ts : List (Transformer α)} {D : Frame α}, Good d X → MinLength (memory ms) X → fitSteps steps X = .ok (Ts, D) →
      runSteps Ts X = .ok D ∧ ∃ φ colsOut, Causal d (memory ms) X.cols colsOut φ (runSteps Ts) := by
  induction hs with
  | nil =>
    intro X Ts D hX hl h
    simp only [fitSteps, Except.ok.injEq, Prod.mk.injEq] at h
    obtain ⟨rfl, rfl⟩ := h
    refine ⟨rfl, fun w => w.headD [], X.cols, ?_⟩
    intro Y hY hc _
    exact ⟨Y, rfl, hY, hc, fun i => Iff.rfl, fun i => (causal_one _).symm⟩
  | @cons s m ss ms hs1 hss ih =>
    intro X Ts D hX hl h
    rw [memory_cons hs1.1] at hl ⊢
    have hmp := memory_pos ms
    have hl1 : MinLength m X := fun i hi => by have := hl i hi; omega
    simp only [fitSteps] at h
    cases hT : s X with
    | error e => rw [hT] at h; simp at h
    | ok T =>
      rw [hT] at h; simp only at h
      cases hY : T X with
      | error e => rw [hY] at h; simp at h
      | ok Y =>
        rw [hY] at h; simp only at h
        cases hr : fitSteps ss Y with
        | error e => rw [hr] at h; simp at h
        | ok q =>
          obtain ⟨Ts', D'⟩ := q
          rw [hr] at h
          simp only [Except.ok.injEq, Prod.mk.injEq] at h
          obtain ⟨rfl, rfl⟩ := h
          obtain ⟨φ1, c1, hc1⟩ := hs1.2 d X T Y hX hl1 hT hY
          have step : ∀ Z W, Good d Z → Z.cols = X.cols → MinLength (m + memory ms - 1) Z → T Z = .ok W →
              Good d W ∧ W.cols = c1 ∧ MinLength (memory ms) W ∧ (∀ i, HasId W.rows i ↔ HasId Z.rows i) ∧ ∀ i, content W.rows i = causal m φ1 (content Z.rows i) := by
            intro Z W hZ hc hlz hTZ
            obtain ⟨W', h1, h2, h3, h4, h5⟩ := hc1 Z hZ hc (fun i hi => by have := hlz i hi; omega)
            rw [hTZ] at h1
            cases h1
            refine ⟨h2, h3, ?_, h4, h5⟩
            intro i hi
            have := hlz i ((h4 i).1 hi)
            rw [← content_length, h5, causal_length, content_length]
            omega
          obtain ⟨hYg, hYc, hYl, -, -⟩ := step X Y hX rfl hl hY
          obtain ⟨hrun, φ2, c2, hc2⟩ := ih hYg hYl hr
          refine ⟨by simp only [runSteps, hY, hrun], fun w => φ2 (causalVals m φ1 w), c2, ?_⟩
          intro Z hZ hc hlz
          obtain ⟨W, hTW, -⟩ := hc1 Z hZ hc (fun i hi => by have := hlz i hi; omega)
          obtain ⟨hWg, hWc, hWl, hWi, hWcont⟩ := step Z W hZ hc hlz hTW
          obtain ⟨V, hV, hVg, hVc, hVi, hVcont⟩ := hc2 W hWg (by rw [hWc, hYc]) hWl
          refine ⟨V, by simp only [runSteps, hTW, hV], hVg, hVc, fun i => (hVi i).trans (hWi i), ?_⟩
          intro i
          rw [hVcont, hWcont, causal_comp hs1.1 hmp]

/-! ## The number of samples of an initial condition -/

theorem ids_eq {X D : Frame α} (h : ∀ i, HasId D.rows i ↔ HasId X.rows i) : ids D.rows = ids X.rows := by
  refine eq_of_pairwise_lt (ids_sorted _) (ids_sorted _) ?_
  intro i
  rw [mem_ids, mem_ids]; exact h i

theorem lookup_ids (l : List Nat) (f : Nat → Nat) {i : Nat} (hi : i ∈ l) : (l.map (fun j => (j, f j))).lookup i = some (f i) := by
  induction l with
  | nil => simp at hi
  | cons a l ih =>
    rw [List.map_cons, List.lookup_cons]
    by_cases h : i = a
    · subst h; simp
    · have : (i == a) = false := by simpa using h
      simp only [this]
      exact ih (by rcases List.mem_cons.1 hi with h' | h'; exact absurd h' h; exact h')

theorem nSamplesIc_spec {X D : Frame α} (hne : X.rows ≠ []) {M : Nat} (hM : 1 ≤ M) (hl : MinLength M X) (hid : ∀ i, HasId D.rows i ↔ HasId X.rows i)
    (hlen : ∀ i, (series D.rows i).length = (series X.rows i).length + 1 - M) : nSamplesIc (nTimesteps X.rows) (nTimesteps D.rows) = .ok (M : Int) := by
  have hids := ids_eq hid
  have hneD : D.rows ≠ [] := by
    obtain ⟨i, hi⟩ := Edmd.exists_hasId hne
    obtain ⟨r, hr, -⟩ := (hid i).2 hi
    exact List.ne_nil_of_mem hr
  have hlen' : ∀ i ∈ ids X.rows, (series D.rows i).length + M = (series X.rows i).length + 1 := by
    intro i hi
    have := hl i (mem_ids.1 hi)
    rw [hlen]; omega
  obtain ⟨i0, hi0⟩ := List.exists_mem_of_ne_nil _ (ids_ne_nil hne)
  cases hX : nTimesteps X.rows with
  | one k =>
    have h1 := (nTimesteps_one hne k).1 hX
    have h2 : nTimesteps D.rows = .one (k + 1 - M) := by
      rw [nTimesteps_one hneD, hids]
      intro i hi
      rw [hlen, h1 i hi]
    rw [h2]
    have h3 := hlen' i0 hi0
    have h4 := (nTimesteps_one hneD _).1 h2 i0 (hids ▸ hi0)
    have h5 := h1 i0 hi0
    simp only [nSamplesIc, Except.ok.injEq]
    omega
  | per l =>
    have hl' := nTimesteps_per hX
    cases hD : nTimesteps D.rows with
    | one k =>
      exfalso
      have h1 := (nTimesteps_one hneD k).1 hD
      have : nTimesteps X.rows = .one (k + M - 1) := by
        rw [nTimesteps_one hne]
        intro i hi
        have := hlen' i hi
        rw [h1 i (hids ▸ hi)] at this
        omega
      rw [hX] at this; simp at this
    | per l2 =>
      have hl2 := nTimesteps_per hD
      rw [hids] at hl2
      simp only [nSamplesIc]
      have e1 : l.map (diffOf l2) = (ids X.rows).map (fun _ => some ((M : Int) - 1)) := by
        rw [hl', List.map_map]
        apply List.map_congr_left
        intro i hi
        have h1 := lookup_ids _ (fun i => (series D.rows i).length) hi
        have h2 := hlen' i hi
        have h3 : l2.lookup i = some (series D.rows i).length := by rw [hl2]; exact h1
        simp only [Function.comp, diffOf, h3, Option.map_some, Option.some.injEq]
        omega
      have e2 : l2.filter (fun p => (l.lookup p.1).isNone) = [] := by
        rw [List.filter_eq_nil_iff, hl2]
        intro p hp
        obtain ⟨i, hi, rfl⟩ := List.mem_map.1 hp
        simp [hl', lookup_ids _ (fun i => (series X.rows i).length) hi]
      rw [e1, e2]
      obtain ⟨a, t, hat⟩ := List.ne_nil_iff_exists_cons.1 (ids_ne_nil hne)
      rw [hat]
      simp [nSamplesIc.perSeries]

/-! ## The attached states -/

theorem find_of_content {X : Frame α} (hv : Valid X.rows) {i : Nat} {t : Int} {v : List α} (h : (t, v) ∈ content X.rows i) (k : Key Int) (hk : k = ⟨i, t⟩) :
    ((X.rows.find? (fun x => decide (x.key = k))).map (·.val)).getD [] = v := by
  obtain ⟨x, hx, hxe⟩ := List.mem_map.1 h
  obtain ⟨hxm, hxi⟩ := mem_series.1 hx
  have hnd : (X.rows.map (·.key)).Nodup := nodup_keys_of_pairwise X.rows ((valid_iff X.rows).1 hv).2
  simp only [Prod.mk.injEq] at hxe
  have hkey : x.key = k := by rw [hk]; simp [Row.key, hxi, hxe.1]
  cases hf : X.rows.find? (fun x => decide (x.key = k)) with
  | none =>
    rw [List.find?_eq_none] at hf
    exact absurd hkey (by simpa using hf x hxm)
  | some y =>
    have hy := List.find?_some hf
    have hym := List.mem_of_find?_eq_some hf
    have : y = x := row_eq_of_key hnd hym hxm (by rw [hkey]; simpa using hy)
    rw [this]
    simpa using hxe.2

theorem attach_causal {d : Int} {m : Nat} {φ : List (List α) → List α} (hm : 1 ≤ m) {X D : Frame α} (hX : Good d X) (hl : MinLength m X) (hD : Good d D)
    (hc : ∀ i, content D.rows i = causal m φ (content X.rows i)) (hn : (X.cols ++ D.cols).Nodup) :
    ∃ E, attach X D = .ok E ∧ Good d E ∧ E.cols = X.cols ++ D.cols ∧ (∀ i, HasId E.rows i ↔ HasId D.rows i) ∧
      ∀ i, content E.rows i = causal m (fun w => w.getD (m - 1) [] ++ φ w) (content X.rows i) := by
  set F : Row Int (List α) → Row Int (List α) := fun r => ⟨r.id, r.time, ((X.rows.find? (fun x => decide (x.key = r.key))).map (·.val)).getD [] ++ r.val⟩ with hF
  have hser : ∀ i, series (D.rows.map F) i = (series D.rows i).map F := by
    intro i
    unfold series
    rw [List.filter_map]; rfl
  have hcont : ∀ i, content (D.rows.map F) i = causal m (fun w => w.getD (m - 1) [] ++ φ w) (content X.rows i) := by
    intro i
    apply List.ext_getElem
    · rw [content_length, hser, List.length_map, ← content_length, hc]; simp
    · intro q h1 h2
      have hqs : q < (series D.rows i).length := by rw [content_length, hser, List.length_map] at h1; exact h1
      have hqc : q < (content D.rows i).length := by rw [content_length]; exact hqs
      have hq : q + m - 1 < (content X.rows i).length := by simp at h2; omega
      have hel : (content D.rows i)[q] = ((content X.rows i)[q + m - 1].1, φ ((((content X.rows i).map (·.2)).drop q).take m)) := by
        have h3 : q < (causal m φ (content X.rows i)).length := by rw [← hc]; exact hqc
        have : (content D.rows i)[q] = (causal m φ (content X.rows i))[q] := by simp only [hc]
        rw [this]
        simp [causal, hq]
      have hr : (content D.rows i)[q] = ((series D.rows i)[q].time, (series D.rows i)[q].val) := by simp [content]
      have hrid : (series D.rows i)[q].id = i := (mem_series.1 (List.getElem_mem hqs)).2
      rw [hr] at hel
      simp only [Prod.mk.injEq] at hel
      have hlhs : (content (D.rows.map F) i)[q] = ((F (series D.rows i)[q]).time, (F (series D.rows i)[q]).val) := by simp [content, hser]
      rw [hlhs]
      simp only [causal, List.getElem_map, List.getElem_range]
      have hfind := find_of_content hX.valid (i := i) (t := (content X.rows i)[q + m - 1].1) (v := (content X.rows i)[q + m - 1].2) (List.getElem_mem hq)
        (series D.rows i)[q].key (by simp [Row.key, hrid, hel.1])
      simp only [hF, hfind]
      congr 1
      · rw [hel.1]; simp [hq]
      · rw [hel.2]
        congr 1
        rw [List.getD_eq_getElem?_getD, List.getElem?_take_of_lt (by omega), List.getElem?_drop, show q + (m - 1) = q + m - 1 by omega]
        simp [hq]
  have hv : Valid (D.rows.map F) := by
    have := (valid_iff D.rows).1 hD.valid
    rw [valid_iff]
    refine ⟨?_, ?_⟩
    · rw [show (D.rows.map F).map (·.id) = D.rows.map (·.id) by rw [List.map_map]; rfl]; exact this.1
    · rw [List.pairwise_map]; exact this.2
  have hrect : Rect (X.cols ++ D.cols).length (D.rows.map F) := by
    intro r hr
    obtain ⟨x, hx, rfl⟩ := List.mem_map.1 hr
    simp only [hF, List.length_append]
    rw [hD.rect x hx]
    congr 1
    have hmem : (x.time, x.val) ∈ content D.rows x.id := List.mem_map.2 ⟨x, mem_series.2 ⟨hx, rfl⟩, rfl⟩
    rw [hc] at hmem
    obtain ⟨q, hq, he⟩ := List.mem_map.1 hmem
    have hq := List.mem_range.1 hq
    have hqm : q + m - 1 < (content X.rows x.id).length := by omega
    have ht := congrArg Prod.fst he
    simp only [List.getD_eq_getElem?_getD, List.getElem?_map, List.getElem?_eq_getElem hqm, Option.map_some, Option.getD_some] at ht
    rw [find_of_content hX.valid (List.getElem_mem hqm) x.key (by simp [Row.key, ht])]
    obtain ⟨y, hy, hye⟩ := List.mem_map.1 (List.getElem_mem hqm)
    rw [List.get_eq_getElem, ← hye]
    exact hX.rect y (mem_series.1 hy).1
  refine ⟨⟨X.cols ++ D.cols, D.rows.map F⟩, ?_, good_of_causal hm hX hl hv hrect hcont, rfl, ?_, hcont⟩
  · unfold attach
    rw [if_neg (by simpa using hn)]
    have hb := build_ok_of_valid hv (by simpa using hD.ne)
    rw [hb]
  · intro i
    rw [hasId_iff_series, hasId_iff_series, hser]; simp

end Verif.Dict
