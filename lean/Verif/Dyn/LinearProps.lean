import Verif.Dyn.LinearLemmas
import Verif.Tsc.DeltaLemmas
import Mathlib.Algebra.BigOperators.Group.Finset.Basic
import Mathlib.Tactic.NoncommRing
/-!
# Properties of the flow map prediction (C26, C28, C72, C73)
-/

namespace Verif.Dyn

open Verif.Tsc Verif.Np Matrix Finset

variable {R ι κ : Type} [CommRing R] [Fintype ι] [DecidableEq ι] [Fintype κ]

theorem stepCount_mul {dt : Int} (hdt : 0 < dt) (k : Nat) : stepCount dt (k * dt) = k := by
  unfold stepCount
  rw [Int.mul_ediv_cancel _ (by omega)]
  simp

/-- Time values `t0 + k dt` for step numbers `k`. -/
def timesAt (t0 dt : Int) (ks : List Nat) : List Int := ks.map (fun (k : Nat) => t0 + k * dt)

theorem timesAt_pairwise {t0 dt : Int} (hdt : 0 < dt) {ks : List Nat} (h : ks.Pairwise (· < ·)) : (timesAt t0 dt ks).Pairwise (· < ·) := by
  unfold timesAt
  rw [List.pairwise_map]
  refine h.imp ?_
  intro a b hab
  have : (a : Int) * dt < b * dt := mul_lt_mul_of_pos_right (by exact_mod_cast hab) hdt
  omega

/-- **C26.** Predicting from one or more initial conditions with distinct IDs at the time values `t0, t0 + k₁ dt, t0 + k₂ dt, ...` succeeds;
the result has exactly the IDs of the initial conditions and holds for each of them, at every time value, the state `A^k x`. -/
theorem C26_flowmap (A : Matrix ι ι R) (dt t0 : Int) (hdt : 0 < dt) (X : List (Row Int (ι → R))) (hX : X ≠ [])
    (hnd : (X.map (·.id)).Nodup) (ks : List Nat) (hks : (0 :: ks).Pairwise (· < ·)) :
    ∃ d, predictMatrix A dt X (timesAt t0 dt (0 :: ks)) = .ok d ∧ Valid d ∧ IdsAscending d ∧ (∀ i, HasId d i ↔ HasId X i) ∧
      ∀ r ∈ X, content d r.id = (0 :: ks).map (fun (k : Nat) => (t0 + k * dt, (A ^ k) *ᵥ r.val)) := by
  have hts := timesAt_pairwise (t0 := t0) hdt hks
  have hcons : timesAt t0 dt (0 :: ks) = t0 :: timesAt t0 dt ks := by simp [timesAt]
  rw [hcons] at hts ⊢
  obtain ⟨d, hd, hv, ha, hid, hc⟩ := evolveFrame_ok X t0 (timesAt t0 dt ks) (fun ics norm => flowmapMatrix A ics norm dt) hX hnd hts
    (by simp [flowmapMatrix]) (by intro s hs; simp only [flowmapMatrix, List.mem_map] at hs; obtain ⟨x, _, rfl⟩ := hs; simp)
  refine ⟨d, hd, hv, ha, hid, ?_⟩
  intro r hr
  obtain ⟨k, hk, rfl⟩ := List.getElem_of_mem hr
  rw [hc k hk]
  simp only [← hcons]
  simp only [flowmapMatrix, List.getElem_map, timesAt, List.map_map, Function.comp_def, add_sub_cancel_left, stepCount_mul hdt,
    List.zip_map']

/-- The initial conditions made of the states that a collection has at time `t`. -/
def statesAt {V : Type} (c : List (Row Int V)) (t : Int) : List (Row Int V) := c.filter (fun r => r.time == t)

theorem content_map_getElem {V : Type} {c : List (Row Int V)} {r : Row Int V} (h : r ∈ c) : (r.time, r.val) ∈ content c r.id :=
  List.mem_map.2 ⟨r, mem_series.2 ⟨h, rfl⟩, rfl⟩

/-- **C26, semigroup law.** Predict `m + n` steps; take the predicted states after `m` steps as new initial conditions and predict `n` steps
from there.  The second prediction agrees, series by series, with the tail of the first one. -/
theorem C26_semigroup (A : Matrix ι ι R) (dt t0 : Int) (hdt : 0 < dt) (X : List (Row Int (ι → R))) (hX : X ≠ [])
    (hnd : (X.map (·.id)).Nodup) (m n : Nat) :
    ∃ d e, predictMatrix A dt X (timesAt t0 dt (List.range (m + n + 1))) = .ok d ∧
      predictMatrix A dt (statesAt d (t0 + m * dt)) (timesAt (t0 + m * dt) dt (List.range (n + 1))) = .ok e ∧
      ∀ i, content e i = (content d i).drop m := by
  have hr0 : ∀ k, List.range (k + 1) = 0 :: (List.range k).map (· + 1) := by
    intro k; rw [List.range_succ_eq_map]
  have hrange : ∀ k, (List.range (k + 1)).Pairwise (· < ·) := fun k => List.pairwise_lt_range
  obtain ⟨d, hd, hv, ha, hid, hc⟩ := C26_flowmap A dt t0 hdt X hX hnd _ (by rw [← hr0 (m + n)]; exact hrange _)
  rw [← hr0] at hd
  simp only [← hr0] at hc
  set Y := statesAt d (t0 + m * dt) with hY
  -- rows of Y
  have hYrow : ∀ y ∈ Y, ∃ r ∈ X, r.id = y.id ∧ y.val = (A ^ m) *ᵥ r.val := by
    intro y hy
    have hyd : y ∈ d ∧ y.time = t0 + m * dt := by simpa [hY, statesAt] using hy
    obtain ⟨r, hr, hri⟩ := (hid y.id).1 ⟨y, hyd.1, rfl⟩
    refine ⟨r, hr, hri, ?_⟩
    have := content_map_getElem hyd.1
    rw [← hri, hc r hr] at this
    obtain ⟨k, _, hk⟩ := List.mem_map.1 this
    obtain ⟨h1, h2⟩ := Prod.mk.inj hk
    have : (k : Int) * dt = m * dt := by rw [hyd.2] at h1; omega
    have : k = m := by have := mul_right_cancel₀ (ne_of_gt hdt) this; exact_mod_cast this
    rw [← h2, this]
  have hYid : ∀ i, HasId Y i ↔ HasId X i := by
    intro i
    constructor
    · rintro ⟨y, hy, rfl⟩
      obtain ⟨r, hr, hri, _⟩ := hYrow y hy
      exact ⟨r, hr, hri⟩
    · rintro ⟨r, hr, rfl⟩
      have : (t0 + m * dt, (A ^ m) *ᵥ r.val) ∈ content d r.id := by
        rw [hc r hr]; exact List.mem_map.2 ⟨m, by simp, rfl⟩
      obtain ⟨y, hy, hye⟩ := List.mem_map.1 this
      have hyt : y.time = t0 + m * dt := (Prod.mk.inj hye).1
      exact ⟨y, by simp [hY, statesAt, (mem_series.1 hy).1, hyt], (mem_series.1 hy).2⟩
  have hYne : Y ≠ [] := by
    obtain ⟨x, X', rfl⟩ := List.ne_nil_iff_exists_cons.1 hX
    obtain ⟨y, hy, _⟩ := (hYid x.id).2 ⟨x, by simp, rfl⟩
    exact List.ne_nil_of_mem hy
  have hYnd : (Y.map (·.id)).Nodup := by
    rw [List.nodup_iff_pairwise_ne, List.pairwise_map]
    have hb := ((valid_iff d).1 hv).2
    have hsub : Y.Sublist d := List.filter_sublist
    have hp := hb.sublist hsub
    refine List.Pairwise.imp_of_mem ?_ hp
    intro a b ha hb hab heq
    have h1 := hab heq
    have h2 : a.time = t0 + m * dt := by simpa [hY, statesAt] using (List.mem_filter.1 ha).2
    have h3 : b.time = t0 + m * dt := by simpa [hY, statesAt] using (List.mem_filter.1 hb).2
    omega
  obtain ⟨e, he, hev, hea, heid, hec⟩ := C26_flowmap A dt (t0 + m * dt) hdt Y hYne hYnd _ (by rw [← hr0 n]; exact hrange _)
  rw [← hr0] at he
  simp only [← hr0] at hec
  refine ⟨d, e, hd, he, ?_⟩
  intro i
  by_cases hi : HasId X i
  · obtain ⟨y, hy, rfl⟩ := (hYid i).2 hi
    obtain ⟨r, hr, hri, hrv⟩ := hYrow y hy
    rw [hec y hy, ← hri, hc r hr]
    apply List.ext_getElem
    · simp; omega
    · intro j h1 h2
      simp only [List.getElem_map, List.getElem_range, List.getElem_drop, hrv, Matrix.mulVec_mulVec, ← pow_add, Prod.mk.injEq]
      refine ⟨by push_cast; ring, by rw [Nat.add_comm]⟩
  · have h1 : content e i = [] := by
      have : series e i = [] := by by_contra h; exact hi ((hYid i).1 ((heid i).1 (hasId_iff_series.2 h)))
      simp [content, this]
    have h2 : content d i = [] := by
      have : series d i = [] := by by_contra h; exact hi ((hid i).1 (hasId_iff_series.2 h))
      simp [content, this]
    rw [h1, h2, List.drop_nil]

/-- **C26**: duplicate IDs among the initial conditions are rejected. -/
theorem C26_rejects (A : Matrix ι ι R) (dt : Int) (X : List (Row Int (ι → R))) (times : List Int) (h : ¬ (X.map (·.id)).Nodup) :
    predictMatrix A dt X times = .error .idsNotUnique := by
  unfold predictMatrix evolveFrame
  rw [if_pos (by rw [Ne, length_unique_eq_iff]; exact h)]

/-- Specification: the state after `n` steps of `x_{k+1} = A x_k + B u_k`. -/
def driven (A : Matrix ι ι R) (B : Matrix ι κ R) (x : ι → R) (u : Nat → κ → R) (n : Nat) : ι → R :=
  (A ^ n) *ᵥ x + ∑ k ∈ range n, (A ^ (n - 1 - k)) *ᵥ (B *ᵥ u k)

theorem driven_step (A : Matrix ι ι R) (B : Matrix ι κ R) (x : ι → R) (u : Nat → κ → R) (n : Nat) :
    driven A B x u (n + 1) = driven A B (A *ᵥ x + B *ᵥ u 0) (fun k => u (k + 1)) n := by
  unfold driven
  rw [Finset.sum_range_succ', Matrix.mulVec_add, Matrix.mulVec_mulVec x, ← pow_succ]
  have hs : ∑ k ∈ range n, (A ^ (n + 1 - 1 - (k + 1))) *ᵥ (B *ᵥ u (k + 1)) = ∑ k ∈ range n, (A ^ (n - 1 - k)) *ᵥ (B *ᵥ u (k + 1)) :=
    Finset.sum_congr rfl (fun k _ => by rw [show n + 1 - 1 - (k + 1) = n - 1 - k by omega])
  rw [hs, Nat.add_sub_cancel, Nat.sub_zero]
  abel

theorem controlledLoop_driven (A : Matrix ι ι R) (B : Matrix ι κ R) (x : ι → R) (ds : List Int) (us : List (κ → R))
    (h : us.length = ds.length) :
    controlledLoop A B x ds us = (List.range (ds.length + 1)).map (driven A B x (fun k => us.getD k 0)) := by
  induction ds generalizing x us with
  | nil => cases us <;> simp [controlledLoop, driven]
  | cons d ds ih =>
    cases us with
    | nil => simp at h
    | cons u us =>
      rw [controlledLoop, ih _ us (by simpa using h), List.length_cons, List.range_succ_eq_map (n := ds.length + 1), List.map_cons, List.map_map]
      congr 1
      · simp [driven]
      · apply List.map_congr_left
        intro n _
        simp only [Function.comp_apply, driven_step, Nat.succ_eq_add_one]
        simp

/-- The values of one series. -/
def vals {V : Type} (c : List (Row Int V)) (i : Nat) : List V := (content c i).map (·.2)

theorem control_blocks {V : Type} {U : List (Row Int V)} (hne : U ≠ []) (hv : Valid U) (ha : IdsAscending U)
    (n : Nat) (hn : ∀ i, HasId U i → (vals U i).length = n) :
    U.length / (ids U).length = n ∧ blocks n (ids U).length (U.map (·.val)) = (ids U).map (vals U) := by
  have hU : (ids U).flatMap (series U) = U := by rw [← newIds_eq_ids ha]; exact hv.eq_flatMap
  have hvals : U.map (·.val) = ((ids U).map (vals U)).flatten := by
    conv_lhs => rw [← hU]
    rw [List.map_flatMap, List.flatMap_def]
    congr 1
    apply List.map_congr_left
    intro i _
    simp [vals, content, List.map_map, Function.comp_def]
  have hl : ∀ b ∈ (ids U).map (vals U), b.length = n := by
    intro b hb
    obtain ⟨i, hi, rfl⟩ := List.mem_map.1 hb
    exact hn i (mem_ids.1 hi)
  have hb := flatten_blocks n _ hl
  rw [List.length_map] at hb
  refine ⟨?_, by rw [hvals]; exact hb⟩
  have hlen : U.length = (ids U).length * n := by
    have := congrArg List.length hvals
    rw [List.length_map, List.length_flatten, List.map_congr_left (g := fun _ => n) hl, List.map_const', List.length_map,
      List.sum_replicate] at this
    simpa using this
  have : 0 < (ids U).length := List.length_pos_iff.2 (ids_ne_nil hne)
  rw [hlen, Nat.mul_div_cancel_left _ this]

/-- **C28, C72** (partial: the IDs of `U` ascend along its index).  For initial conditions and control series with the same IDs, the control
series having the same time values, `n` control states each, and starting at the time of the initial conditions, and `n + 1` increasing time values: the
prediction succeeds, and every initial condition is driven by the control series *with its own ID*:
the `k`-th state is `A^k x + Σ_{j<k} A^(k-1-j) B u_j`. -/
theorem C28_controlled (A : Matrix ι ι R) (B : Matrix ι κ R) (X : List (Row Int (ι → R))) (U : List (Row Int (κ → R)))
    (hX : X ≠ []) (hXU : X.map (·.id) = ids U) (hUv : Valid U) (hUa : IdsAscending U) (hsame : isSameTimeValues U = true)
    (t0 : Int) (hXt : ∀ r ∈ X, r.time = t0) (hUt : (timeValues U).head? = some t0)
    (n : Nat) (hn : ∀ i, HasId U i → (vals U i).length = n) (s0 : Int) (ts : List Int) (hts : (s0 :: ts).Pairwise (· < ·))
    (hlen : ts.length = n) :
    ∃ d, predictControlled A B X U (s0 :: ts) = .ok d ∧ Valid d ∧ (∀ i, HasId d i ↔ HasId X i) ∧
      ∀ r ∈ X, content d r.id =
        (s0 :: ts).zip ((List.range (n + 1)).map (driven A B r.val (fun k => (vals U r.id).getD k 0))) := by
  have hUne : U ≠ [] := by
    rintro rfl
    apply hX
    have : X.map (·.id) = [] := by rw [hXU]; rfl
    simpa using this
  obtain ⟨hdiv, hblk⟩ := control_blocks hUne hUv hUa n hn
  have hnd : (X.map (·.id)).Nodup := by rw [hXU]; exact ids_nodup U
  have hlenids : (ids U).length = X.length := by rw [← hXU]; simp
  have hdl : (diffs ((s0 :: ts).map (· - s0))).length = n := by rw [length_diffs]; simp [hlen]
  have hul : ∀ i ∈ ids U, (vals U i).length = n := fun i hi => hn i (mem_ids.1 hi)
  obtain ⟨d, hd, hv, ha, hid, hc⟩ := evolveFrame_ok X s0 ts
    (fun ics norm => flowmapMatrixControlled A B ics ((ids U).map (vals U)) norm) hX hnd hts
    (by simp [flowmapMatrixControlled, hlenids])
    (by
      intro s hs
      simp only [flowmapMatrixControlled] at hs
      obtain ⟨k, hk, rfl⟩ := List.getElem_of_mem hs
      simp only [List.getElem_zipWith, List.getElem_map]
      rw [length_controlledLoop]
      · rw [hdl]; simp [hlen]
      · rw [hul _ (List.getElem_mem _), hdl])
  refine ⟨d, ?_, hv, hid, ?_⟩
  · unfold predictControlled validateControl
    rw [if_neg (by simpa using hXU), if_neg (by simp [hsame]), if_neg (by
      simp only [List.any_map, Bool.not_eq_true, List.any_eq_false, Function.comp_apply, bne_iff_ne, ne_eq, not_not]
      intro r hr; rw [hXt r hr]; exact hUt)]
    simp only [hdiv]
    rw [if_neg (by simp [hlen])]
    rw [hblk]; exact hd
  · intro r hr
    obtain ⟨k, hk, rfl⟩ := List.getElem_of_mem hr
    rw [hc k hk]
    congr 1
    have hk' : k < (ids U).length := by omega
    have hidk : (ids U)[k] = X[k].id := by
      have : (X.map (·.id))[k]'(by simpa using hk) = X[k].id := by simp
      rw [← this]; simp only [hXU]
    simp only [flowmapMatrixControlled, List.getElem_zipWith, List.getElem_map]
    rw [controlledLoop_driven _ _ _ _ _ (by rw [hul _ (List.getElem_mem _), hdl]), hdl, hidk]

/-- **C28, causality.** The state after `n` steps depends only on the first `n` control inputs. -/
theorem C28_causal (A : Matrix ι ι R) (B : Matrix ι κ R) (x : ι → R) (ds ds' : List Int) (us us' : List (κ → R))
    (h : us.length = ds.length) (h' : us'.length = ds'.length) (n : Nat) (hn : n ≤ ds.length) (hn' : n ≤ ds'.length)
    (hu : us.take n = us'.take n) : (controlledLoop A B x ds us)[n]? = (controlledLoop A B x ds' us')[n]? := by
  rw [controlledLoop_driven A B x ds us h, controlledLoop_driven A B x ds' us' h']
  rw [List.getElem?_map, List.getElem?_map, List.getElem?_range (by omega), List.getElem?_range (by omega)]
  simp only [Option.map_some, driven]
  congr 2
  apply Finset.sum_congr rfl
  intro k hk
  have hk : k < n := by simpa using hk
  have : us.getD k 0 = us'.getD k 0 := by
    rw [List.getD_eq_getElem?_getD, List.getD_eq_getElem?_getD, ← List.getElem?_take_of_lt hk, hu, List.getElem?_take_of_lt hk]
  simp only [this]

/-- Two one-dimensional initial conditions, zero system matrix, unit control matrix. -/
def exX : List (Row Int (Fin 1 → Int)) := [⟨0, 0, ![0]⟩, ⟨1, 0, ![0]⟩]
/-- Control for ID 0 is 5, for ID 1 is 7. -/
def exU : List (Row Int (Fin 1 → Int)) := [⟨0, 0, ![5]⟩, ⟨1, 0, ![7]⟩]
/-- The same collection with the rows in another (valid) order. -/
def exU' : List (Row Int (Fin 1 → Int)) := [⟨1, 0, ![7]⟩, ⟨0, 0, ![5]⟩]

example : Valid exU ∧ IdsAscending exU ∧ isSameTimeValues exU = true ∧ exX.map (·.id) = ids exU ∧ (timeValues exU).head? = some 0 ∧
    ∀ i, HasId exU i → (vals exU i).length = 1 := by
  refine ⟨?_, ?_, rfl, rfl, rfl, ?_⟩
  · have := (build_ok_iff (c := exU) (c' := exU)).1 rfl; exact this.2.2
  · simp [IdsAscending, exU]
  · rintro i ⟨r, hr, rfl⟩
    simp only [exU, List.mem_cons, List.not_mem_nil, or_false] at hr
    rcases hr with rfl | rfl <;> rfl

/-- **C72 is violated** by the code: reordering the series inside `U` (a valid collection with the same IDs and the same content per ID) is
accepted and changes the prediction; series 0 is then driven by the control input of series 1. -/
theorem C72_violated :
    Valid exU' ∧ (∀ i, content exU' i = content exU i) ∧
    (∃ d, predictControlled (0 : Matrix (Fin 1) (Fin 1) Int) 1 exX exU [0, 1] = .ok d ∧ content d 0 = [(0, ![0]), (1, ![5])]) ∧
    (∃ d, predictControlled (0 : Matrix (Fin 1) (Fin 1) Int) 1 exX exU' [0, 1] = .ok d ∧ content d 0 = [(0, ![0]), (1, ![7])]) := by
  have hv : Valid exU := ((build_ok_iff (c := exU) (c' := exU)).1 rfl).2.2
  have hv' : Valid exU' := ((build_ok_iff (c := exU') (c' := exU')).1 rfl).2.2
  refine ⟨hv', ?_, ?_, ?_⟩
  · intro i
    by_cases h0 : i = 0
    · subst h0; rfl
    · by_cases h1 : i = 1
      · subst h1; rfl
      · simp [content, series, exU, exU', Ne.symm h0, Ne.symm h1]
  · obtain ⟨d, hd, _, _, _, hc⟩ := evolveFrame_ok exX 0 [1]
      (fun ics norm => flowmapMatrixControlled (0 : Matrix (Fin 1) (Fin 1) Int) 1 ics [[![5]], [![7]]] norm) (by simp [exX])
      (by decide) (by decide) rfl (by decide +kernel)
    exact ⟨d, hd, by have := hc 0 (by decide); rw [show exX[0].id = 0 from rfl] at this; rw [this]; decide +kernel⟩
  · obtain ⟨d, hd, _, _, _, hc⟩ := evolveFrame_ok exX 0 [1]
      (fun ics norm => flowmapMatrixControlled (0 : Matrix (Fin 1) (Fin 1) Int) 1 ics [[![7]], [![5]]] norm) (by simp [exX])
      (by decide) (by decide) rfl (by decide +kernel)
    exact ⟨d, hd, by have := hc 0 (by decide); rw [show exX[0].id = 0 from rfl] at this; rw [this]; decide +kernel⟩

/-- **C73 is violated** by the code: for every controlled system the predicted states depend on the number of time values only, not on the
time values: with `dt` the time between two samples of the data, asking for the state at `t0 + 2 dt` with one control input returns the state after one step. -/
theorem C73_violated (A : Matrix ι ι R) (B : Matrix ι κ R) (x : ι → R) (u : κ → R) (dt : Int) :
    flowmapMatrixControlled A B [x] [[u]] [0, 2 * dt] = flowmapMatrixControlled A B [x] [[u]] [0, dt] ∧
    flowmapMatrixControlled A B [x] [[u]] [0, 2 * dt] = [[x, A *ᵥ x + B *ᵥ u]] ∧
    -- a doubling system without effect of the control: after two steps 4, the code says 2
    flowmapMatrixControlled (2 : Matrix (Fin 1) (Fin 1) Int) (0 : Matrix (Fin 1) (Fin 1) Int) [![1]] [[![0]]] [0, 2] = [[![1], ![2]]] ∧
    flowmapMatrix (2 : Matrix (Fin 1) (Fin 1) Int) [![1]] [0, 2] 1 = [[![1], ![4]]] :=
  ⟨rfl, rfl, by decide +kernel, by decide +kernel⟩

/-- **C73** (what holds): two lists of time values of the same length give the same states. -/
theorem C73_only_length_counts (A : Matrix ι ι R) (B : Matrix ι κ R) (ics : List (ι → R)) (us : List (List (κ → R)))
    (times times' : List Int) (hl : times.length = times'.length) (hu : ∀ u ∈ us, u.length = times.length - 1) :
    flowmapMatrixControlled A B ics us times = flowmapMatrixControlled A B ics us times' := by
  unfold flowmapMatrixControlled
  apply List.ext_getElem
  · simp
  · intro k h1 h2
    simp only [List.getElem_zipWith]
    have hk : k < us.length := by simp at h1; omega
    have := hu _ (List.getElem_mem hk)
    rw [controlledLoop_driven _ _ _ _ _ (by rw [this, length_diffs]), controlledLoop_driven _ _ _ _ _ (by rw [this, length_diffs, hl]),
      length_diffs, length_diffs, hl]

end Verif.Dyn
