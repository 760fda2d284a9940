import Verif.Edmd.DictionaryChain
import Verif.Utils.GeneralProps
/-! # C155, C156: the dictionary of EDMD -/

namespace Verif.Dict

open Verif.Tsc Verif.Np Verif.Takens Verif.Utils

variable {α : Type}

/-! ## C155 -/

/-- **C155.** The dictionary of an accepted `fit` on regularly sampled series that are long enough: `n_samples_ic_` is the memory of the chain of transformers, and there is one
function with which `fit` and every later `transform` compute each dictionary state from the last `n_samples_ic_` samples of the same series, at the time value of the last one. -/
theorem C155_dictionary {d : Int} {steps : List (Step α)} {ms : List Nat} (hs : List.Forall₂ CausalStep steps ms) {X : Frame α} (hX : Good d X)
    (hl : MinLength (memory ms) X) {includeId : Bool} {opt : Option Bool} {f : Fit α} {D : Frame α} (h : fitDict steps includeId opt X = .ok (f, D)) :
    f.nIc = memory ms ∧ transform f includeId X = .ok D ∧ ∃ φ colsOut, Causal d (memory ms) X.cols colsOut φ (transform f includeId) := by
  unfold fitDict at h
  cases hf : fitSteps steps X with
  | error e => rw [hf] at h; simp at h
  | ok q =>
    obtain ⟨Ts, D0⟩ := q
    rw [hf] at h
    simp only at h
    obtain ⟨hrun, φ, cols, hc⟩ := fitSteps_causal hs hX hl hf
    obtain ⟨D0', h1, h2, h3, h4, h5⟩ := hc X hX rfl hl
    rw [hrun] at h1
    cases h1
    rw [nSamplesIc_spec hX.ne (memory_pos ms) hl h4 (fun i => by rw [← content_length, h5, causal_length, content_length])] at h
    simp only at h
    cases hw : withState includeId (preserves opt X.cols D0.cols) X D0 with
    | error e => rw [hw] at h; simp at h
    | ok D' =>
      rw [hw] at h
      simp only [Except.ok.injEq, Prod.mk.injEq] at h
      obtain ⟨rfl, rfl⟩ := h
      refine ⟨rfl, by simp only [transform, hrun, hw], ?_⟩
      by_cases hp : (includeId && !preserves opt X.cols D0.cols) = true
      · have hn : (X.cols ++ D0.cols).Nodup := by
          by_contra hn
          unfold withState at hw
          rw [if_pos hp] at hw
          unfold attach at hw
          rw [if_pos (by simpa using hn)] at hw
          simp at hw
        refine ⟨fun w => w.getD (memory ms - 1) [] ++ φ w, X.cols ++ cols, ?_⟩
        intro Z hZ hcz hlz
        obtain ⟨W, w1, w2, w3, w4, w5⟩ := hc Z hZ hcz hlz
        obtain ⟨E, e1, e2, e3, e4, e5⟩ := attach_causal (memory_pos ms) hZ hlz w2 w5 (by rw [hcz, w3, ← h3]; exact hn)
        refine ⟨E, ?_, e2, by rw [e3, hcz, w3], fun i => (e4 i).trans (w4 i), e5⟩
        simp only [transform, w1, withState, if_pos hp, e1]
      · refine ⟨φ, cols, ?_⟩
        intro Z hZ hcz hlz
        obtain ⟨W, w1, w2, w3, w4, w5⟩ := hc Z hZ hcz hlz
        refine ⟨W, ?_, w2, w3, w4, w5⟩
        simp only [transform, w1, withState, if_neg hp]

/-- **C155 (initial conditions).** If series `j` of a collection of initial conditions consists of `n_samples_ic_` consecutive samples of series `i` of some data, beginning with sample `q`, then
its dictionary has one state, and this is the dictionary state `q` of that series. -/
theorem C155_initial {d : Int} {steps : List (Step α)} {ms : List Nat} (hs : List.Forall₂ CausalStep steps ms) {X : Frame α} (hX : Good d X)
    (hl : MinLength (memory ms) X) {includeId : Bool} {opt : Option Bool} {f : Fit α} {D : Frame α} (h : fitDict steps includeId opt X = .ok (f, D))
    {Z V DZ DV : Frame α} (hZ : Good d Z) (hZc : Z.cols = X.cols) (hZl : MinLength (memory ms) Z) (hV : Good d V) (hVc : V.cols = X.cols) (hVl : MinLength (memory ms) V)
    (hDZ : transform f includeId Z = .ok DZ) (hDV : transform f includeId V = .ok DV) {i j q : Nat} (hq : q + f.nIc.toNat ≤ (content Z.rows i).length)
    (hw : content V.rows j = ((content Z.rows i).drop q).take f.nIc.toNat) : ∃ s, content DV.rows j = [s] ∧ (content DZ.rows i)[q]? = some s := by
  obtain ⟨hn, -, φ, cols, hc⟩ := C155_dictionary hs hX hl h
  have hm := memory_pos ms
  rw [hn] at hq hw
  simp only [Int.toNat_natCast] at hq hw
  obtain ⟨Z', z1, -, -, -, z5⟩ := hc Z hZ hZc hZl
  obtain ⟨V', v1, -, -, -, v5⟩ := hc V hV hVc hVl
  rw [hDZ] at z1; cases z1
  rw [hDV] at v1; cases v1
  have hlen : (content V.rows j).length = memory ms := by rw [hw, List.length_take, List.length_drop]; omega
  refine ⟨(((content Z.rows i).map (·.1)).getD (q + memory ms - 1) 0, φ ((((content Z.rows i).map (·.2)).drop q).take (memory ms))), ?_, ?_⟩
  swap
  · rw [z5, causal_getElem? (by omega)]
  · rw [v5]
    apply List.ext_getElem?
    intro k
    by_cases hk : k < 1
    · rw [causal_getElem? (by omega)]
      obtain rfl : k = 0 := by omega
      simp only [List.getElem?_cons_zero, Option.some.injEq, Prod.mk.injEq]
      rw [hw]
      constructor
      · simp only [List.getD_eq_getElem?_getD, List.getElem?_map, zero_add]
        rw [List.getElem?_take_of_lt (by omega), List.getElem?_drop, show q + (memory ms - 1) = q + memory ms - 1 by omega]
      · simp [List.map_take, List.map_drop, List.take_take]
    · rw [List.getElem?_eq_none (by simp; omega), List.getElem?_eq_none (by simp; omega)]

theorem fitSteps_rejects {d : Int} {steps : List (Step α)} {ms : List Nat} (hs : List.Forall₂ CausalStep steps ms) :
    List.Forall₂ RejectStep steps ms → ∀ {X : Frame α} {Ts : List (Transformer α)} {D : Frame α}, Good d X → MinLength (memory ms) X → fitSteps steps X = .ok (Ts, D) →
      ∀ Z, Good d Z → Z.cols = X.cols → (∃ i, HasId Z.rows i ∧ (series Z.rows i).length < memory ms) → ∃ e, runSteps Ts Z = .error e := by
  induction hs with
  | nil =>
    rintro - X Ts D hX hl h Z hZ - ⟨i, hi, hlt⟩
    rw [hasId_iff_series, ← List.length_pos_iff] at hi
    simp [memory] at hlt
    simp [hlt] at hi
  | @cons s m ss ms hs1 hss ih =>
    intro hr X Ts D hX hl h Z hZ hc hex
    obtain ⟨hr1, hrs⟩ := List.forall₂_cons.1 hr
    rw [memory_cons hs1.1] at hl hex
    have hmp := memory_pos ms
    have hl1 : MinLength m X := fun i hi => by have := hl i hi; omega
    simp only [fitSteps] at h
    cases hT : s X with
    | error e => rw [hT] at h; simp at h
    | ok T =>
      rw [hT] at h; simp only at h
      cases hY : T X with
      | error e => rw [hY] at h; simp at h
      | ok Y =>
        rw [hY] at h; simp only at h
        cases hq : fitSteps ss Y with
        | error e => rw [hq] at h; simp at h
        | ok q =>
          obtain ⟨Ts', D'⟩ := q
          rw [hq] at h
          simp only [Except.ok.injEq, Prod.mk.injEq] at h
          obtain ⟨rfl, rfl⟩ := h
          obtain ⟨φ1, c1, hc1⟩ := hs1.2 d X T Y hX hl1 hT hY
          simp only [runSteps]
          by_cases hZm : MinLength m Z
          · obtain ⟨Y', y1, y2, y3, y4, y5⟩ := hc1 X hX rfl hl1
            rw [hY] at y1; cases y1
            obtain ⟨W, w1, w2, w3, w4, w5⟩ := hc1 Z hZ hc hZm
            rw [w1]
            obtain ⟨i, hi, hlt⟩ := hex
            refine ih hrs y2 ?_ hq W w2 (by rw [w3, y3]) ⟨i, (w4 i).2 hi, ?_⟩
            · intro j hj
              have := hl j ((y4 j).1 hj)
              rw [← content_length, y5, causal_length, content_length]
              omega
            · have := hZm i hi
              rw [← content_length, w5, causal_length, content_length]
              omega
          · unfold MinLength at hZm
            push Not at hZm
            obtain ⟨e, he⟩ := hr1 d X T hX hT Z hZ hc hZm
            exact ⟨e, by rw [he]⟩

/-- **C155 (rejected inputs).** If the transformers of the dictionary raise for series that are too short, `transform` raises for a collection with a series of fewer than
`n_samples_ic_` samples. -/
theorem C155_rejects {d : Int} {steps : List (Step α)} {ms : List Nat} (hs : List.Forall₂ CausalStep steps ms) (hr : List.Forall₂ RejectStep steps ms) {X : Frame α} (hX : Good d X)
    (hl : MinLength (memory ms) X) {includeId : Bool} {opt : Option Bool} {f : Fit α} {D : Frame α} (h : fitDict steps includeId opt X = .ok (f, D))
    {Z : Frame α} (hZ : Good d Z) (hZc : Z.cols = X.cols) (hshort : ∃ i, HasId Z.rows i ∧ ((series Z.rows i).length : Int) < f.nIc) : ∃ e, transform f includeId Z = .error e := by
  have hn := (C155_dictionary hs hX hl h).1
  unfold fitDict at h
  cases hf : fitSteps steps X with
  | error e => rw [hf] at h; simp at h
  | ok q =>
    obtain ⟨Ts, D0⟩ := q
    have hrej := fitSteps_rejects hs hr hX hl hf Z hZ hZc (by
      obtain ⟨i, hi, h'⟩ := hshort
      exact ⟨i, hi, by omega⟩)
    rw [hf] at h
    simp only at h
    split at h
    · simp at h
    · split at h
      · simp at h
      · simp only [Except.ok.injEq, Prod.mk.injEq] at h
        obtain ⟨rfl, rfl⟩ := h
        obtain ⟨e, he⟩ := hrej
        exact ⟨e, by simp only [transform, he]⟩

/-- Row-wise transformers. -/
theorem row_rejects (g : Frame α → List α → List α) (names : List String → List String) : RejectStep (rowStep g names) 1 := by
  rintro d X T - - Y - - ⟨i, hi, hlt⟩
  rw [hasId_iff_series, ← List.length_pos_iff] at hi
  omega

/-- The Takens embedding. -/
theorem takens_rejects [Mul α] (p : Params) (w : Option (Nat → α)) : RejectStep (takensStep p w) (lost p + 1) := by
  rintro d X T hX hT Y hY hc ⟨i, hi, hlt⟩
  unfold takensStep at hT
  cases hf : Takens.fit p .int X with
  | error e => rw [hf] at hT; simp at hT
  | ok f =>
    rw [hf] at hT
    simp only [Except.ok.injEq] at hT
    subst hT
    cases h : Takens.transform f w .int Y with
    | error e => exact ⟨.takens e, by simp only [h]⟩
    | ok Z =>
      have := ((C18_accepts w hf hY.ne hY.valid hY.rect).1 ⟨Z, h⟩).2.2.1 i hi
      omega

/-! ## C156 -/

theorem prefix_values [Zero α] (cols rest : List String) (hn : (cols ++ rest).Nodup) (v : List α) (hv : v.length = (cols ++ rest).length) :
    cols.map (featureValue (cols ++ rest) (fun k => v.getD k 0)) = v.take cols.length := by
  rw [List.length_append] at hv
  apply List.ext_getElem
  · simp; omega
  · intro k h1 h2
    have hk : k < cols.length := by simpa using h1
    simp only [List.getElem_map, featureValue, List.getElem_take]
    have hi : (cols ++ rest).idxOf cols[k] = k := by
      have : cols[k] = (cols ++ rest)[k]'(by simp; omega) := by simp [hk]
      rw [this]
      exact hn.idxOf_getElem k (by simp; omega)
    rw [hi]
    simp [show k < v.length by omega]

/-- The projection onto the first columns. -/
theorem inverse_prefix [Semiring α] (f : Fit α) {D : Frame α} {rest : List String} (hc : D.cols = f.cols ++ rest) (hn : D.cols.Nodup) (hr : Rect D.cols.length D.rows) :
    inverseProject f D = .ok ⟨f.cols, mapVal (fun v => v.take f.cols.length) D.rows⟩ := by
  obtain ⟨P, hP, -⟩ := C22_in_order (α := α) D.cols f.cols hn (by rw [hc]; exact List.sublist_append_left _ _) (fun _ => 0)
  unfold inverseProject
  rw [hP]
  simp only [Except.ok.injEq, Frame.mk.injEq, true_and]
  unfold mapVal
  apply List.map_congr_left
  intro r hrm
  obtain ⟨P', hP', hval⟩ := C22_in_order (α := α) D.cols f.cols hn (by rw [hc]; exact List.sublist_append_left _ _) (fun k => r.val.getD k 0)
  rw [hP] at hP'
  cases hP'
  rw [hval]
  have := prefix_values (α := α) f.cols rest (hc ▸ hn) r.val (by rw [hr r hrm, hc])
  rw [← hc] at this
  rw [this]

theorem causal_take {m : Nat} (hm : 1 ≤ m) (n : Nat) (φ : List (List α) → List α) (s : List (Int × List α)) (hs : ∀ p ∈ s, p.2.length = n) :
    (causal m (fun w => w.getD (m - 1) [] ++ φ w) s).map (fun q => (q.1, q.2.take n)) = s.drop (m - 1) := by
  apply List.ext_getElem
  · simp; omega
  · intro q h1 h2
    have hq : m - 1 + q < s.length := by simp at h2; omega
    have e : (((s.map (·.2)).drop q).take m).getD (m - 1) [] = s[m - 1 + q].2 := by
      rw [List.getD_eq_getElem?_getD, List.getElem?_take_of_lt (by omega), List.getElem?_drop, show q + (m - 1) = m - 1 + q by omega]
      simp [hq]
    simp only [causal, List.getElem_map, List.getElem_range, List.getElem_drop, e, show q + m - 1 = m - 1 + q by omega]
    have hl := hs _ (List.getElem_mem hq)
    rw [List.take_left' hl]
    simp [hq]

theorem mapVal_content_eq (g : List α → List α) (c : List (Row Int (List α))) (i : Nat) : content (mapVal g c) i = (content c i).map (fun q => (q.1, g q.2)) := mapVal_content g c i

/-- **C156 (attached states).** With `include_id_state=True` and a dictionary without the original names, `inverse_transform` maps the dictionary of every collection back to its samples from the
`n_samples_ic_`-th one on. -/
theorem C156_attached [Semiring α] {d : Int} {steps : List (Step α)} {ms : List Nat} (hs : List.Forall₂ CausalStep steps ms) {X : Frame α} (hX : Good d X)
    (hl : MinLength (memory ms) X) {opt : Option Bool} {f : Fit α} {D : Frame α} (h : fitDict steps true opt X = .ok (f, D)) (hp : f.preserves = false)
    {Z DZ : Frame α} (hZ : Good d Z) (hZc : Z.cols = X.cols) (hZl : MinLength (memory ms) Z) (hDZ : transform f true Z = .ok DZ) :
    ∃ B, inverseProject f DZ = .ok B ∧ B.cols = Z.cols ∧ ∀ i, content B.rows i = (content Z.rows i).drop (f.nIc.toNat - 1) := by
  have hn := (C155_dictionary hs hX hl h).1
  unfold fitDict at h
  cases hf : fitSteps steps X with
  | error e => rw [hf] at h; simp at h
  | ok q =>
    obtain ⟨Ts, D0⟩ := q
    obtain ⟨-, φ, cols, hc⟩ := fitSteps_causal hs hX hl hf
    rw [hf] at h
    simp only at h
    split at h
    · simp at h
    · split at h
      · simp at h
      · simp only [Except.ok.injEq, Prod.mk.injEq] at h
        obtain ⟨rfl, rfl⟩ := h
        simp only at hp hn ⊢
        obtain ⟨W, w1, w2, w3, w4, w5⟩ := hc Z hZ hZc hZl
        simp only [transform, w1, withState, hp, Bool.not_false, Bool.and_self, if_true] at hDZ
        have hnd : (Z.cols ++ W.cols).Nodup := by
          by_contra hnd
          unfold attach at hDZ
          rw [if_pos (by simpa using hnd)] at hDZ
          simp at hDZ
        obtain ⟨E, e1, e2, e3, e4, e5⟩ := attach_causal (memory_pos ms) hZ hZl w2 w5 hnd
        rw [hDZ] at e1
        cases e1
        refine ⟨_, inverse_prefix _ (rest := W.cols) (by simp only; rw [e3, hZc]) (by rw [e3]; exact hnd) e2.rect, by simp only; exact hZc.symm, ?_⟩
        intro i
        simp only
        rw [mapVal_content_eq, e5, hn, Int.toNat_natCast]
        apply causal_take (memory_pos ms)
        intro p hp'
        obtain ⟨x, hx, rfl⟩ := List.mem_map.1 hp'
        rw [← hZc]
        exact hZ.rect x (mem_series.1 hx).1

theorem causal_congr {m : Nat} {φ φ' : List (List α) → List α} (h : ∀ w : List (List α), w.length = m → φ w = φ' w) (s : List (Int × List α)) : causal m φ s = causal m φ' s := by
  unfold causal
  apply List.map_congr_left
  intro q hq
  have := List.mem_range.1 hq
  rw [h _ (by simp; omega)]

theorem Causal.congr {d : Int} {m : Nat} {cols colsOut : List String} {φ φ' : List (List α) → List α} {T : Transformer α} (hc : Causal d m cols colsOut φ T)
    (h : ∀ w : List (List α), w.length = m → φ w = φ' w) : Causal d m cols colsOut φ' T := by
  intro X hX hcols hl
  obtain ⟨Y, h1, h2, h3, h4, h5⟩ := hc X hX hcols hl
  exact ⟨Y, h1, h2, h3, h4, fun i => by rw [h5, causal_congr h]⟩

/-- A chain of steps that keep the states. -/
theorem fitSteps_keeps {d : Int} {steps : List (Step α)} {ms : List Nat} (hs : List.Forall₂ KeepStep steps ms) :
    ∀ {X : Frame α} {Ts : List (Transformer α)} {D : Frame α}, Good d X → X.cols.Nodup → MinLength (memory ms) X → fitSteps steps X = .ok (Ts, D) →
      ∃ (ψ : List (List α) → List α) (rest : List String), (X.cols ++ rest).Nodup ∧ Causal d (memory ms) X.cols (X.cols ++ rest) (fun w => w.getD (memory ms - 1) [] ++ ψ w) (runSteps Ts) := by
  induction hs with
  | nil =>
    intro X Ts D hX hn hl h
    simp only [fitSteps, Except.ok.injEq, Prod.mk.injEq] at h
    obtain ⟨rfl, rfl⟩ := h
    refine ⟨fun _ => [], [], by simpa using hn, ?_⟩
    intro Y hY hc _
    refine ⟨Y, rfl, hY, by simpa using hc, fun i => Iff.rfl, fun i => ?_⟩
    conv_lhs => rw [← causal_one (content Y.rows i)]
    apply causal_congr
    intro w _
    cases w <;> simp [memory]
  | @cons s m ss ms hs1 hss ih =>
    intro X Ts D hX hn hl h
    rw [memory_cons hs1.1] at hl ⊢
    have hm := hs1.1
    have hmp := memory_pos ms
    have hl1 : MinLength m X := fun i hi => by have := hl i hi; omega
    simp only [fitSteps] at h
    cases hT : s X with
    | error e => rw [hT] at h; simp at h
    | ok T =>
      rw [hT] at h; simp only at h
      cases hY : T X with
      | error e => rw [hY] at h; simp at h
      | ok Y =>
        rw [hY] at h; simp only at h
        cases hr : fitSteps ss Y with
        | error e => rw [hr] at h; simp at h
        | ok q =>
          obtain ⟨Ts', D'⟩ := q
          rw [hr] at h
          simp only [Except.ok.injEq, Prod.mk.injEq] at h
          obtain ⟨rfl, rfl⟩ := h
          obtain ⟨ψ1, r1, hn1, hc1⟩ := hs1.2 d X T Y hX hl1 hT hY
          have step : ∀ Z, Good d Z → Z.cols = X.cols → MinLength (m + memory ms - 1) Z → ∃ W, T Z = .ok W ∧ Good d W ∧ W.cols = X.cols ++ r1 ∧ MinLength (memory ms) W ∧
              (∀ i, HasId W.rows i ↔ HasId Z.rows i) ∧ ∀ i, content W.rows i = causal m (fun w => w.getD (m - 1) [] ++ ψ1 w) (content Z.rows i) := by
            intro Z hZ hc hlz
            obtain ⟨W, h1, h2, h3, h4, h5⟩ := hc1 Z hZ hc (fun i hi => by have := hlz i hi; omega)
            refine ⟨W, h1, h2, h3, ?_, h4, h5⟩
            intro i hi
            have := hlz i ((h4 i).1 hi)
            rw [← content_length, h5, causal_length, content_length]
            omega
          obtain ⟨Y', hYY, hYg, hYc, hYl, -, -⟩ := step X hX rfl hl
          rw [hY] at hYY; cases hYY
          obtain ⟨ψ2, r2, hn2, hc2⟩ := ih hYg (by rw [hYc]; exact hn1) hYl hr
          rw [hYc] at hn2 hc2
          refine ⟨fun w => ψ1 ((w.drop (memory ms - 1)).take m) ++ ψ2 (causalVals m (fun w => w.getD (m - 1) [] ++ ψ1 w) w), r1 ++ r2, by rw [← List.append_assoc]; exact hn2, ?_⟩
          refine Causal.congr (φ := fun w => (causalVals m (fun w => w.getD (m - 1) [] ++ ψ1 w) w).getD (memory ms - 1) [] ++ ψ2 (causalVals m (fun w => w.getD (m - 1) [] ++ ψ1 w) w)) ?_ ?_
          · intro Z hZ hc hlz
            obtain ⟨W, hTW, hWg, hWc, hWl, hWi, hWcont⟩ := step Z hZ hc hlz
            obtain ⟨V, hV, hVg, hVc, hVi, hVcont⟩ := hc2 W hWg hWc hWl
            refine ⟨V, by simp only [runSteps, hTW, hV], hVg, by rw [hVc, List.append_assoc], fun i => (hVi i).trans (hWi i), ?_⟩
            intro i
            rw [hVcont, hWcont, causal_comp hm hmp]
          · intro w hw
            simp only
            rw [← List.append_assoc]
            congr 1
            have h1 : memory ms - 1 < w.length + 1 - m := by omega
            simp only [causalVals, List.getD_eq_getElem?_getD, List.getElem?_map, List.getElem?_range h1, Option.map_some, Option.getD_some]
            rw [List.getElem?_take_of_lt (by omega), List.getElem?_drop, show memory ms - 1 + (m - 1) = m + memory ms - 1 - 1 by omega]

theorem Good.lengths {d : Int} {Z : Frame α} (hZ : Good d Z) (i : Nat) : ∀ p ∈ content Z.rows i, p.2.length = Z.cols.length := by
  intro p hp
  obtain ⟨x, hx, rfl⟩ := List.mem_map.1 hp
  exact hZ.rect x (mem_series.1 hx).1

theorem forall2_causal {steps : List (Step α)} {ms : List Nat} (hs : List.Forall₂ KeepStep steps ms) : List.Forall₂ CausalStep steps ms := hs.imp (fun _ _ h => h.causal)

/-- **C156 (kept states).** If every step keeps the states (delay embeddings do), `dict_preserves_id_state="infer"` finds the original names, and `inverse_transform` maps the dictionary of every
collection back to its samples from the `n_samples_ic_`-th one on. -/
theorem C156_kept [Semiring α] {d : Int} {steps : List (Step α)} {ms : List Nat} (hs : List.Forall₂ KeepStep steps ms) {X : Frame α} (hX : Good d X) (hXn : X.cols.Nodup)
    (hl : MinLength (memory ms) X) {includeId : Bool} {f : Fit α} {D : Frame α} (h : fitDict steps includeId none X = .ok (f, D))
    {Z DZ : Frame α} (hZ : Good d Z) (hZc : Z.cols = X.cols) (hZl : MinLength (memory ms) Z) (hDZ : transform f includeId Z = .ok DZ) :
    f.preserves = true ∧ ∃ B, inverseProject f DZ = .ok B ∧ B.cols = Z.cols ∧ ∀ i, content B.rows i = (content Z.rows i).drop (f.nIc.toNat - 1) := by
  have hn := (C155_dictionary (forall2_causal hs) hX hl h).1
  unfold fitDict at h
  cases hf : fitSteps steps X with
  | error e => rw [hf] at h; simp at h
  | ok q =>
    obtain ⟨Ts, D0⟩ := q
    obtain ⟨ψ, rest, hnd, hc⟩ := fitSteps_keeps hs hX hXn hl hf
    have hrun := (fitSteps_causal (forall2_causal hs) hX hl hf).1
    obtain ⟨D1, d1, -, d3, -⟩ := hc X hX rfl hl
    rw [hrun] at d1; cases d1
    have hpres : preserves none X.cols D0.cols = true := by
      simp only [preserves, List.all_eq_true, decide_eq_true_eq, d3]
      intro n hn
      exact List.mem_append_left _ hn
    rw [hf] at h
    simp only [hpres] at h
    split at h
    · simp at h
    · split at h
      · simp at h
      · simp only [Except.ok.injEq, Prod.mk.injEq] at h
        obtain ⟨rfl, rfl⟩ := h
        simp only at hn ⊢
        refine ⟨trivial, ?_⟩
        obtain ⟨W, w1, w2, w3, w4, w5⟩ := hc Z hZ hZc hZl
        simp only [transform, w1, withState, Bool.not_true, Bool.and_false] at hDZ
        simp at hDZ
        subst hDZ
        refine ⟨_, inverse_prefix _ (rest := rest) w3 (by rw [w3]; exact hnd) w2.rect, hZc.symm, ?_⟩
        intro i
        simp only
        rw [mapVal_content_eq, w5, hn, Int.toNat_natCast]
        apply causal_take (memory_pos ms)
        rw [← hZc]
        exact hZ.lengths i

/-- **C156 (scaled states).** A transformer that maps each sample by itself and keeps the names, as the scalers do: the states are taken to be preserved, and `inverse_transform` returns the mapped
values; these are the original ones only for the samples that the map leaves as they are. -/
theorem C156_scaled_partial [Semiring α] {d : Int} (g : Frame α → List α → List α) (hg : ∀ X v, v.length = X.cols.length → (g X v).length = X.cols.length) {X : Frame α} (hX : Good d X)
    (hXn : X.cols.Nodup) {includeId : Bool} {f : Fit α} {D : Frame α} (h : fitDict [rowStep g id] includeId none X = .ok (f, D)) {Z : Frame α} (hZ : Good d Z) (hZc : Z.cols = X.cols) :
    f.preserves = true ∧ ∃ DZ B, transform f includeId Z = .ok DZ ∧ inverseProject f DZ = .ok B ∧ B.cols = Z.cols ∧ B.rows = mapVal (g X) Z.rows ∧
      (B.rows = Z.rows ↔ ∀ r ∈ Z.rows, g X r.val = r.val) := by
  unfold fitDict at h
  simp only [fitSteps, rowStep] at h
  rw [rowTransform_ok hX rfl (show (id X.cols).Nodup from hXn)] at h
  simp only [id] at h
  have hpres : preserves none X.cols X.cols = true := by simp [preserves]
  rw [hpres] at h
  split at h
  · simp at h
  · simp only [withState, Bool.not_true, Bool.and_false] at h
    simp at h
    obtain ⟨rfl, rfl⟩ := h
    refine ⟨rfl, ⟨X.cols, mapVal (g X) Z.rows⟩, ⟨X.cols, mapVal (g X) Z.rows⟩, ?_, ?_, hZc.symm, rfl, ?_⟩
    · simp only [transform, runSteps, rowTransform_ok hZ hZc hXn, withState, Bool.not_true, Bool.and_false]
      simp
    · have hr : Rect X.cols.length (mapVal (g X) Z.rows) := by
        intro r hr
        obtain ⟨x, hx, rfl⟩ := List.mem_map.1 hr
        exact hg X x.val (by rw [hZ.rect x hx, hZc])
      rw [inverse_prefix _ (D := ⟨X.cols, mapVal (g X) Z.rows⟩) (rest := []) (by simp) hXn hr]
      simp only [Except.ok.injEq, Frame.mk.injEq, true_and]
      unfold mapVal at hr ⊢
      rw [List.map_map]
      apply List.map_congr_left
      intro r hrm
      simp only [Function.comp]
      rw [List.take_of_length_le (by rw [hg X r.val (by rw [hZ.rect r hrm, hZc])])]
    · unfold mapVal
      have hmap : ∀ l : List (Row Int (List α)), l.map (fun r => (⟨r.id, r.time, g X r.val⟩ : Row Int (List α))) = l ↔ ∀ r ∈ l, (⟨r.id, r.time, g X r.val⟩ : Row Int (List α)) = r := by
        intro l
        induction l with
        | nil => simp
        | cons r l ih => rw [List.map_cons, List.cons.injEq, ih, List.forall_mem_cons]
      rw [hmap]
      constructor
      · intro h r hr
        have := congrArg Row.val (h r hr)
        exact this
      · intro h r hr
        rw [h r hr]

/-! ## Examples -/

/-- Two series of three and four samples. -/
def exDict : Frame ℚ := ⟨["x"], [⟨0, 0, [0]⟩, ⟨0, 1, [1]⟩, ⟨0, 2, [4]⟩, ⟨1, 5, [2]⟩, ⟨1, 6, [3]⟩, ⟨1, 7, [0]⟩, ⟨1, 8, [1]⟩]⟩

/-- Three samples and two samples. -/
def exShort : Frame ℚ := ⟨["x"], [⟨0, 0, [0]⟩, ⟨0, 1, [1]⟩, ⟨0, 2, [2]⟩, ⟨1, 0, [2]⟩, ⟨1, 1, [2]⟩]⟩

theorem exDict_good : Good 1 exDict := by
  refine ⟨by decide, ?_, ?_, ?_, by norm_num⟩
  · rw [valid_iff]; exact ⟨by decide, by unfold Before; decide⟩
  · unfold Rect; decide +kernel
  · intro i
    by_cases h0 : i = 0
    · subst h0; decide +kernel
    by_cases h1 : i = 1
    · subst h1; decide +kernel
    · have : timesOf exDict.rows i = [] := by simp [timesOf, series, exDict, Ne.symm h0, Ne.symm h1]
      simp [this, consecutive]

theorem exShort_good : Good 1 exShort := by
  refine ⟨by decide, ?_, ?_, ?_, by norm_num⟩
  · rw [valid_iff]; exact ⟨by decide, by unfold Before; decide⟩
  · unfold Rect; decide +kernel
  · intro i
    by_cases h0 : i = 0
    · subst h0; decide +kernel
    by_cases h1 : i = 1
    · subst h1; decide +kernel
    · have : timesOf exShort.rows i = [] := by simp [timesOf, series, exShort, Ne.symm h0, Ne.symm h1]
      simp [this, consecutive]

theorem exDict_long : MinLength 3 exDict := by
  rintro i ⟨r, hr, rfl⟩
  revert r; decide +kernel

theorem ok_of_any {ε β : Type} {e : Except ε β} {P : β → Bool} (h : e.toOption.any P = true) : ∃ b, e = .ok b ∧ P b = true := by
  cases e with
  | error e => simp [Except.toOption] at h
  | ok b => exact ⟨b, rfl, by simpa [Except.toOption] using h⟩

/-- The squares of the states. -/
def squares (_ : Frame ℚ) (v : List ℚ) : List ℚ := v.map (fun x => x * x)

/-- A dictionary of one delay, squares and an average over two samples, with the attached states. -/
example : ((fitDict [takensStep ⟨0, 1, 1⟩ none, rowStep squares (fun c => c.map (· ++ "^2")), averageStep 2] true none exDict).toOption.any (fun p =>
    decide (p.1.nIc = 3) && !p.1.preserves && decide (p.2.cols = ["x", "x^2_ma2", "x:d1^2_ma2"]) &&
      decide (p.2.rows = [⟨0, 2, [4, 17 / 2, 1 / 2]⟩, ⟨1, 7, [0, 9 / 2, 13 / 2]⟩, ⟨1, 8, [1, 1 / 2, 9 / 2]⟩]))) = true := by decide +kernel

example : List.Forall₂ CausalStep [takensStep ⟨0, 1, 1⟩ (none : Option (Nat → ℚ)), rowStep squares (fun c => c.map (· ++ "^2")), averageStep 2] [2, 1, 2] ∧ memory [2, 1, 2] = 3 :=
  ⟨.cons (takens_causal ⟨0, 1, 1⟩ none) (.cons (row_causal _ _ (by intro X v h; simp [squares, h])) (.cons (average_causal le_rfl) .nil)), by decide⟩

/-- **C155 (short series).** The moving average does not raise for a series that is shorter than its window: with a dictionary that was fitted with `n_samples_ic_ = 3`, `transform` of a collection with a
series of two samples leaves this series out. -/
theorem C155_short_violated : ∃ f D Y, fitDict [averageStep 3] false none exDict = .ok (f, D) ∧ f.nIc = 3 ∧ Good 1 exShort ∧ exShort.cols = exDict.cols ∧
    transform f false exShort = .ok Y ∧ HasId exShort.rows 1 ∧ ¬ HasId Y.rows 1 := by
  have h : ((fitDict [averageStep 3] false none exDict).toOption.any (fun p => decide (p.1.nIc = 3) &&
      (transform p.1 false exShort).toOption.any (fun Y => decide (Y.rows.map (·.id) = [0])))) = true := by decide +kernel
  obtain ⟨⟨f, D⟩, h1, h2⟩ := ok_of_any h
  rw [Bool.and_eq_true, decide_eq_true_eq] at h2
  obtain ⟨Y, h3, h4⟩ := ok_of_any h2.2
  rw [decide_eq_true_eq] at h4
  refine ⟨f, D, Y, h1, h2.1, exShort_good, rfl, h3, ⟨_, List.mem_of_getElem? (i := 3) rfl, rfl⟩, ?_⟩
  rw [← mem_ids, mem_ids', h4]
  decide

/-- **C156 (scaled states, negation).** A min-max scaler in the dictionary: the map back from the dictionary does not give the original states. -/
theorem C156_scaled_violated : ∃ f D B, fitDict [rowStep minMax id] false none exDict = .ok (f, D) ∧ transform f false exDict = .ok D ∧ inverseProject f D = .ok B ∧
    content exDict.rows 0 = [(0, [0]), (1, [1]), (2, [4])] ∧ content B.rows 0 = [(0, [0]), (1, [1 / 4]), (2, [1])] := by
  have h : ((fitDict [rowStep minMax id] false none exDict).toOption.any (fun p => (transform p.1 false exDict).toOption.any (fun Y => decide (Y.cols = p.2.cols) && decide (Y.rows = p.2.rows)) &&
      (inverseProject p.1 p.2).toOption.any (fun B => decide (content B.rows 0 = [(0, [0]), (1, [1 / 4]), (2, [1])])))) = true := by decide +kernel
  obtain ⟨⟨f, D⟩, h1, h2⟩ := ok_of_any h
  rw [Bool.and_eq_true] at h2
  obtain ⟨Y, h3, h4⟩ := ok_of_any h2.1
  obtain ⟨B, h5, h6⟩ := ok_of_any h2.2
  simp only [Bool.and_eq_true, decide_eq_true_eq] at h4 h6
  have : Y = D := by
    cases Y; cases D
    simp only [Frame.mk.injEq]
    exact h4
  subst this
  exact ⟨f, Y, B, h1, h3, h5, by decide +kernel, h6⟩

theorem fitSteps_run {steps : List (Step α)} {X : Frame α} {Ts : List (Transformer α)} {D : Frame α} (h : fitSteps steps X = .ok (Ts, D)) : runSteps Ts X = .ok D := by
  induction steps generalizing X Ts with
  | nil =>
    simp only [fitSteps, Except.ok.injEq, Prod.mk.injEq] at h
    obtain ⟨rfl, rfl⟩ := h
    rfl
  | cons s ss ih =>
    simp only [fitSteps] at h
    split at h
    · simp at h
    · split at h
      · simp at h
      · split at h
        · simp at h
        · rename_i hT _ _ _ hs
          simp only [Except.ok.injEq, Prod.mk.injEq] at h
          obtain ⟨rfl, rfl⟩ := h
          simp only [runSteps, hT]
          exact ih hs

/-- **C156 (explicit flag).** With `dict_preserves_id_state` given, the names are not compared: for `True` the dictionary is left as it is, and for `False` the states are attached whenever they are asked
for. -/
theorem C156_flag {steps : List (Step α)} {includeId b : Bool} {X : Frame α} {f : Fit α} {D : Frame α} (h : fitDict steps includeId (some b) X = .ok (f, D)) :
    f.preserves = b ∧ ∃ D0, runSteps f.steps X = .ok D0 ∧ D.cols = (if includeId = true ∧ b = false then X.cols ++ D0.cols else D0.cols) := by
  unfold fitDict at h
  cases hf : fitSteps steps X with
  | error e => rw [hf] at h; simp at h
  | ok q =>
    obtain ⟨Ts, D0⟩ := q
    rw [hf] at h
    simp only at h
    split at h
    · simp at h
    · split at h
      · simp at h
      · rename_i hw
        simp only [Except.ok.injEq, Prod.mk.injEq] at h
        obtain ⟨rfl, rfl⟩ := h
        refine ⟨rfl, D0, fitSteps_run hf, ?_⟩
        change withState includeId b X D0 = _ at hw
        by_cases hc : includeId = true ∧ b = false
        · rw [if_pos hc]
          obtain ⟨rfl, rfl⟩ := hc
          simp only [withState, Bool.not_false, Bool.and_self, if_true, attach] at hw
          split at hw
          · simp at hw
          · split at hw
            · simp at hw
            · simp only [Except.ok.injEq] at hw
              rw [← hw]
        · rw [if_neg hc]
          have hb : (includeId && !b) = false := by
            cases includeId <;> cases b <;> simp_all
          simp only [withState, hb] at hw
          simp at hw
          rw [hw]

theorem foldl_min_spec (xs : List ℚ) (x : ℚ) : xs.foldl min x ∈ x :: xs ∧ ∀ y ∈ x :: xs, xs.foldl min x ≤ y := by
  induction xs generalizing x with
  | nil => simp
  | cons z zs ih =>
    obtain ⟨h1, h2⟩ := ih (min x z)
    simp only [List.foldl_cons]
    constructor
    · rcases List.mem_cons.1 h1 with h | h
      · rcases min_choice x z with e | e <;> rw [h, e] <;> simp
      · exact List.mem_cons_of_mem _ (List.mem_cons_of_mem _ h)
    · intro y hy
      have h3 := h2 _ List.mem_cons_self
      rcases List.mem_cons.1 hy with rfl | hy
      · exact h3.trans (min_le_left _ _)
      · rcases List.mem_cons.1 hy with rfl | hy
        · exact h3.trans (min_le_right _ _)
        · exact h2 y (List.mem_cons_of_mem _ hy)

theorem foldl_max_spec (xs : List ℚ) (x : ℚ) : xs.foldl max x ∈ x :: xs ∧ ∀ y ∈ x :: xs, y ≤ xs.foldl max x := by
  induction xs generalizing x with
  | nil => simp
  | cons z zs ih =>
    obtain ⟨h1, h2⟩ := ih (max x z)
    simp only [List.foldl_cons]
    constructor
    · rcases List.mem_cons.1 h1 with h | h
      · rcases max_choice x z with e | e <;> rw [h, e] <;> simp
      · exact List.mem_cons_of_mem _ (List.mem_cons_of_mem _ h)
    · intro y hy
      have h3 := h2 _ List.mem_cons_self
      rcases List.mem_cons.1 hy with rfl | hy
      · exact (le_max_left _ _).trans h3
      · rcases List.mem_cons.1 hy with rfl | hy
        · exact (le_max_right _ _).trans h3
        · exact h2 y (List.mem_cons_of_mem _ hy)

theorem columnRange_spec {X : Frame ℚ} (hne : X.rows ≠ []) (k : Nat) : (∃ r ∈ X.rows, r.val.getD k 0 = (columnRange X k).1) ∧ (∃ r ∈ X.rows, r.val.getD k 0 = (columnRange X k).2) ∧
    ∀ r ∈ X.rows, (columnRange X k).1 ≤ r.val.getD k 0 ∧ r.val.getD k 0 ≤ (columnRange X k).2 := by
  obtain ⟨r0, rs, hr⟩ := List.exists_cons_of_ne_nil hne
  unfold columnRange
  rw [hr]
  simp only [List.map_cons]
  obtain ⟨a1, a2⟩ := foldl_min_spec (rs.map (fun r => r.val.getD k 0)) (r0.val.getD k 0)
  obtain ⟨b1, b2⟩ := foldl_max_spec (rs.map (fun r => r.val.getD k 0)) (r0.val.getD k 0)
  rw [← List.map_cons (f := fun r : Row Int (List ℚ) => r.val.getD k 0)] at a1 a2 b1 b2
  refine ⟨List.mem_map.1 a1, List.mem_map.1 b1, fun r hr => ⟨a2 _ (List.mem_map_of_mem hr), b2 _ (List.mem_map_of_mem hr)⟩⟩

/-- **C156 (scaler).** The min-max scaler maps every feature of the training data into `[0, 1]` by one increasing affine map; the smallest value becomes 0, the largest one becomes 1 unless the feature is
constant. -/
theorem C156_scaler {X : Frame ℚ} (hne : X.rows ≠ []) (k : Nat) (hk : ∀ r ∈ X.rows, k < r.val.length) :
    (∀ r ∈ X.rows, 0 ≤ (minMax X r.val).getD k 0 ∧ (minMax X r.val).getD k 0 ≤ 1) ∧ (∃ r ∈ X.rows, (minMax X r.val).getD k 0 = 0) ∧
      ((∃ r ∈ X.rows, ∃ q ∈ X.rows, r.val.getD k 0 ≠ q.val.getD k 0) → ∃ r ∈ X.rows, (minMax X r.val).getD k 0 = 1) ∧
      ∃ a b : ℚ, 0 < a ∧ ∀ v : List ℚ, k < v.length → (minMax X v).getD k 0 = a * v.getD k 0 + b := by
  obtain ⟨⟨r1, m1, e1⟩, ⟨r2, m2, e2⟩, hb⟩ := columnRange_spec hne k
  have hval : ∀ v : List ℚ, k < v.length → (minMax X v).getD k 0 =
      (v.getD k 0 - (columnRange X k).1) / (if (columnRange X k).2 = (columnRange X k).1 then 1 else (columnRange X k).2 - (columnRange X k).1) := by
    intro v hv
    unfold minMax
    simp [List.getD_eq_getElem?_getD, hv]
  have hle : (columnRange X k).1 ≤ (columnRange X k).2 := e2 ▸ (hb r2 m2).1
  have hpos : 0 < (if (columnRange X k).2 = (columnRange X k).1 then (1 : ℚ) else (columnRange X k).2 - (columnRange X k).1) := by
    split
    · norm_num
    · rename_i hn
      have := lt_of_le_of_ne hle (Ne.symm hn)
      linarith
  refine ⟨?_, ?_, ?_, ?_⟩
  · intro r hr
    rw [hval _ (hk r hr)]
    have := hb r hr
    refine ⟨div_nonneg (by linarith) hpos.le, ?_⟩
    rw [div_le_one hpos]
    split
    · rename_i he
      rw [he] at this
      linarith
    · linarith
  · refine ⟨r1, m1, ?_⟩
    rw [hval _ (hk r1 m1), e1]
    simp
  · rintro ⟨r, hr, q, hq, hne'⟩
    refine ⟨r2, m2, ?_⟩
    have hn : (columnRange X k).2 ≠ (columnRange X k).1 := by
      intro he
      have h1 := hb r hr
      have h2 := hb q hq
      rw [he] at h1 h2
      exact hne' (by linarith)
    rw [hval _ (hk r2 m2), e2, if_neg hn]
    exact div_self (sub_ne_zero.2 hn)
  · refine ⟨1 / _, -(columnRange X k).1 * (1 / (if (columnRange X k).2 = (columnRange X k).1 then (1 : ℚ) else (columnRange X k).2 - (columnRange X k).1)), one_div_pos.2 hpos, fun v hv => ?_⟩
    rw [hval v hv]
    ring

end Verif.Dict
