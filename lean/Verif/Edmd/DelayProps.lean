import Verif.Edmd.Delay
import Verif.Edmd.DictionaryProps
import Verif.Edmd.ClosedProps
import Mathlib.LinearAlgebra.Matrix.Charpoly.Coeff
/-! # Property C190: EDMD with a delay embedding is exact for recurrences and partially observed linear systems -/

namespace Verif.Edmd

open Verif.Tsc Verif.Np Verif.Dyn Verif.Lin Verif.Dict Verif.Takens Verif.Dmd Matrix

variable {N n : Nat}

/-! ## Specification -/

/-- The window of the next step: the oldest sample is dropped and the next sample `F w` appended. -/
def advance (F : List (List ℝ) → List ℝ) (w : List (List ℝ)) : List (List ℝ) := w.tail ++ [F w]

/-- The series follows the recurrence `F` with memory of `m` samples, and all its windows are in `S`. -/
def Follows (m : Nat) (S : Set (List (List ℝ))) (F : List (List ℝ) → List ℝ) (vals : List (List ℝ)) : Prop :=
  (∀ q, q + m ≤ vals.length → (vals.drop q).take m ∈ S) ∧ ∀ q, q + m < vals.length → vals[q + m]? = some (F ((vals.drop q).take m))

/-- The dictionary `φ` on windows is closed under the recurrence `F`: its values after one step are a linear function `K₀` of its values before, and the current state (the last sample of the window)
is a linear function `B₀` of the dictionary. -/
structure ClosedMemory (S : Set (List (List ℝ))) (F : List (List ℝ) → List ℝ) (φ : List (List ℝ) → List ℝ) (K₀ : Matrix (Fin N) (Fin N) ℝ) (B₀ : Matrix (Fin N) (Fin n) ℝ) : Prop where
  stays : ∀ w ∈ S, advance F w ∈ S
  step : ∀ w ∈ S, toVec N (φ (advance F w)) = K₀ *ᵥ toVec N (φ w)
  decode : ∀ w ∈ S, toVec N (φ w) ᵥ* B₀ = toVec n (w.getLastD [])

/-! ## Lemmas -/

theorem mem_consecutive_iff {β : Type} : ∀ {l : List β} {p : β × β}, p ∈ consecutive l ↔ ∃ q, l[q]? = some p.1 ∧ l[q + 1]? = some p.2
  | [], p => by simp [consecutive]
  | [a], p => by
    simp only [consecutive, List.not_mem_nil, false_iff, not_exists, not_and]
    intro q _ h
    simp at h
  | a :: b :: l, p => by
    rw [consecutive, List.mem_cons, mem_consecutive_iff]
    constructor
    · rintro (rfl | ⟨q, h1, h2⟩)
      · exact ⟨0, by simp⟩
      · exact ⟨q + 1, by simpa using h1, by simpa using h2⟩
    · rintro ⟨q, h1, h2⟩
      cases q with
      | zero =>
        left
        simp at h1 h2
        exact Prod.ext h1.symm h2.symm
      | succ q => exact Or.inr ⟨q, by simpa using h1, by simpa using h2⟩

theorem window_succ {m : Nat} (hm : 1 ≤ m) {vals : List (List ℝ)} {q : Nat} (hq : q + m < vals.length) {S : Set (List (List ℝ))} {F : List (List ℝ) → List ℝ} (h : Follows m S F vals) :
    (vals.drop (q + 1)).take m = advance F ((vals.drop q).take m) := by
  unfold advance
  apply List.ext_getElem?
  intro j
  by_cases hj : j < m
  · rw [List.getElem?_take_of_lt hj, List.getElem?_drop]
    by_cases hj2 : j + 1 < m
    · rw [List.getElem?_append_left (by simp; omega), List.getElem?_tail, List.getElem?_take_of_lt (by omega), List.getElem?_drop]
      congr 1; omega
    · have : j + 1 = m := by omega
      rw [List.getElem?_append_right (by simp; omega)]
      have h0 : j - ((vals.drop q).take m).tail.length = 0 := by simp; omega
      rw [h0, show q + 1 + j = q + m by omega, h.2 q hq]
      rfl
  · rw [List.getElem?_eq_none (by simp; omega), List.getElem?_eq_none (by simp; omega)]

theorem window_last {m : Nat} (hm : 1 ≤ m) {vals : List (List ℝ)} {q : Nat} (hq : q + m ≤ vals.length) : ((vals.drop q).take m).getLastD [] = vals.getD (q + m - 1) [] := by
  rw [List.getLastD_eq_getLast?, List.getLast?_eq_getElem?, List.getD_eq_getElem?_getD]
  congr 1
  rw [List.getElem?_take_of_lt (by simp; omega), List.getElem?_drop]
  congr 1
  simp; omega

theorem nodup_ids_of_single {τ V : Type} {c : List (Row τ V)} (h : ∀ i, (series c i).length ≤ 1) : (c.map (·.id)).Nodup := by
  rw [List.nodup_iff_count_le_one]
  intro i
  have := h i
  unfold series at this
  rw [List.count_eq_countP, List.countP_map, List.countP_eq_length_filter]
  convert this using 2
  apply List.filter_congr
  intro r _
  simp

/-- The values of the dictionary data. -/
theorem dict_vals {m : Nat} {φ : List (List ℝ) → List ℝ} {X D : Takens.Frame ℝ} (hc : ∀ i, content D.rows i = causal m φ (content X.rows i)) (i q : Nat) :
    ((content D.rows i).map (·.2))[q]? = if q < (content X.rows i).length + 1 - m then some (φ ((((content X.rows i).map (·.2)).drop q).take m)) else none := by
  rw [hc]
  split
  · rename_i hq
    rw [List.getElem?_map, causal_getElem? hq]; rfl
  · rename_i hq
    rw [List.getElem?_eq_none]
    simp; omega

/-- The pairs of successive dictionary values. -/
theorem dict_pairs {d : Int} {m : Nat} (hm : 1 ≤ m) {φ : List (List ℝ) → List ℝ} {X D : Takens.Frame ℝ} (hD : Good d D) (hc : ∀ i, content D.rows i = causal m φ (content X.rows i))
    {S : Set (List (List ℝ))} {F : List (List ℝ) → List ℝ} (hF : ∀ i, HasId X.rows i → Follows m S F ((content X.rows i).map (·.2))) (p : List ℝ × List ℝ) :
    p ∈ snapshotPairs D.rows ↔ ∃ i q, q + m < (content X.rows i).length ∧ p.1 = φ ((((content X.rows i).map (·.2)).drop q).take m) ∧
      p.2 = φ (advance F ((((content X.rows i).map (·.2)).drop q).take m)) := by
  rw [snapshotPairs_eq hD.valid, List.mem_flatMap]
  constructor
  · rintro ⟨i, -, hp⟩
    obtain ⟨q, h1, h2⟩ := mem_consecutive_iff.1 hp
    rw [dict_vals hc] at h1 h2
    split at h2
    · rename_i hq
      rw [if_pos (by omega)] at h1
      have hq' : q + m < (content X.rows i).length := by omega
      have hi : HasId X.rows i := hasId_content.2 (by intro h; rw [h] at hq'; simp at hq')
      rw [window_succ hm (by simpa using hq') (hF i hi)] at h2
      exact ⟨i, q, hq', (Option.some.inj h1).symm, (Option.some.inj h2).symm⟩
    · simp at h2
  · rintro ⟨i, q, hq, h1, h2⟩
    have hi : HasId X.rows i := hasId_content.2 (by intro h; rw [h] at hq; simp at hq)
    have hiD : HasId D.rows i := by
      rw [hasId_content, hc, ← List.length_pos_iff, causal_length]; omega
    refine ⟨i, ?_, mem_consecutive_iff.2 ⟨q, ?_, ?_⟩⟩
    · rw [mem_newIds]
      obtain ⟨r, hr, rfl⟩ := hiD
      exact List.mem_map.2 ⟨r, hr, rfl⟩
    · rw [dict_vals hc, if_pos (by omega), h1]
    · rw [dict_vals hc, if_pos (by omega), h2, window_succ hm (by simpa using hq) (hF i hi)]

/-- The state with the index of a row of the dictionary data is the last sample of its window. -/
theorem dict_row {d : Int} {m : Nat} (hm : 1 ≤ m) {φ : List (List ℝ) → List ℝ} {X D : Takens.Frame ℝ} (hX : Good d X) (hc : ∀ i, content D.rows i = causal m φ (content X.rows i))
    {r : Row Int (List ℝ)} (hr : r ∈ D.rows) : ∃ q, q + m ≤ (content X.rows r.id).length ∧ r.val = φ ((((content X.rows r.id).map (·.2)).drop q).take m) ∧
      stateAt n X r.key = toVec n (((((content X.rows r.id).map (·.2)).drop q).take m).getLastD []) := by
  have hmem : (r.time, r.val) ∈ content D.rows r.id := List.mem_map.2 ⟨r, mem_series.2 ⟨hr, rfl⟩, rfl⟩
  rw [hc] at hmem
  obtain ⟨q, hq, he⟩ := List.mem_map.1 hmem
  have hq := List.mem_range.1 hq
  simp only [Prod.mk.injEq] at he
  have hlt : q + m - 1 < (content X.rows r.id).length := by omega
  refine ⟨q, by omega, he.2.symm, ?_⟩
  have ht : (content X.rows r.id)[q + m - 1].1 = r.time := by rw [← he.1]; simp [hlt]
  rw [window_last hm (by simp; omega), stateAt, find_of_content hX.valid (List.getElem_mem hlt) r.key (by simp [Row.key, ht])]
  simp [hlt]

theorem closedMemory_iterate {S : Set (List (List ℝ))} {F : List (List ℝ) → List ℝ} {φ : List (List ℝ) → List ℝ} {K₀ : Matrix (Fin N) (Fin N) ℝ} {B₀ : Matrix (Fin N) (Fin n) ℝ}
    (h : ClosedMemory S F φ K₀ B₀) (k : Nat) : ∀ w ∈ S, (advance F)^[k] w ∈ S ∧ (K₀ ^ k) *ᵥ toVec N (φ w) = toVec N (φ ((advance F)^[k] w)) := by
  induction k with
  | zero => intro w hw; simp [hw]
  | succ k ih =>
    intro w hw
    have h1 := ih (advance F w) (h.stays w hw)
    rw [Function.iterate_succ_apply, pow_succ, ← Matrix.mulVec_mulVec, ← h.step w hw]
    exact h1

/-! ## Property theorems -/

/-- **C190 (recovery).** The dictionary has a memory of `m` samples, the data follow a recurrence under which it is closed, and the dictionary values of the windows with a successor span the dictionary
space. Then every fitted model has the exact system matrix and the exact inverse map. -/
theorem C190_recovery_partial {k : TimeKind} {d : Int} {m : Nat} (hm : 1 ≤ m) {φ : List (List ℝ) → List ℝ} {cols : List String} {T : Transformer ℝ} {X D : Takens.Frame ℝ} (hX : Good d X)
    (hl : MinLength (m + 1) X) (hT : Causal d m X.cols cols φ T) (hD : T X = .ok D) (hs : IdsAscending D.rows ∨ EqualLengths D.rows)
    {S : Set (List (List ℝ))} {F : List (List ℝ) → List ℝ} {K₀ : Matrix (Fin N) (Fin N) ℝ} {B₀ : Matrix (Fin N) (Fin n) ℝ} (hcl : ClosedMemory S F φ K₀ B₀)
    (hF : ∀ i, HasId X.rows i → Follows m S F ((content X.rows i).map (·.2)))
    (hspan : Submodule.span ℝ {z | ∃ i q, q + m < (content X.rows i).length ∧ toVec N (φ ((((content X.rows i).map (·.2)).drop q).take m)) = z} = ⊤)
    {K : Matrix (Fin N) (Fin N) ℝ} {B : Matrix (Fin N) (Fin n) ℝ} (h : FitsDict k X D K B) : K = K₀ ∧ B = B₀ := by
  obtain ⟨D', hD', hDg, -, hDi, hc⟩ := hT X hX rfl (fun i hi => by have := hl i hi; omega)
  rw [hD] at hD'
  cases hD'
  have hpairs := dict_pairs hm hDg hc hF
  have hset : {x | ∃ p ∈ snapshotPairs (mapVal (toVec N) D.rows), p.1 = x} =
      {z | ∃ i q, q + m < (content X.rows i).length ∧ toVec N (φ ((((content X.rows i).map (·.2)).drop q).take m)) = z} := by
    rw [mapVal_snapshotPairs]
    ext z
    simp only [List.mem_map, Set.mem_setOf_eq]
    constructor
    · rintro ⟨_, ⟨p, hp, rfl⟩, rfl⟩
      obtain ⟨i, q, hq, h1, -⟩ := (hpairs p).1 hp
      exact ⟨i, q, hq, by rw [h1]⟩
    · rintro ⟨i, q, hq, rfl⟩
      exact ⟨_, ⟨(_, _), (hpairs _).2 ⟨i, q, hq, rfl, rfl⟩, rfl⟩, rfl⟩
  have hS : ∀ i q, q + m ≤ (content X.rows i).length → (((content X.rows i).map (·.2)).drop q).take m ∈ S := by
    intro i q hq
    have hi : HasId X.rows i := hasId_content.2 (by intro h; rw [h] at hq; simp at hq; omega)
    exact (hF i hi).1 q (by simpa using hq)
  constructor
  · apply C30_recovery_partial (mapVal_ne_nil.2 hDg.ne) (mapVal_valid.2 hDg.valid)
      (by rcases hs with hs | hs
          · exact Or.inl (mapVal_idsAscending.2 hs)
          · exact Or.inr (mapVal_equalLengths.2 hs))
      (fun i hi => by
        have hiX := (hDi i).1 (mapVal_hasId.1 hi)
        have := hl i hiX
        rw [mapVal_series, mapVal_length, ← content_length, hc, causal_length, content_length]
        omega) none (by simp) K₀ _ _ h.1
    · rw [mapVal_snapshotPairs]
      intro p hp
      obtain ⟨p', hp', rfl⟩ := List.mem_map.1 hp
      obtain ⟨i, q, hq, h1, h2⟩ := (hpairs p').1 hp'
      simp only [h1, h2]
      exact hcl.step _ (hS i q (by omega))
    · rw [hset]; exact hspan
  · have hrow : ∀ r ∈ D.rows, toVec N r.val ᵥ* B₀ = stateAt n X r.key := by
      intro r hr
      obtain ⟨q, hq, h1, h2⟩ := dict_row (n := n) hm hX hc hr
      rw [h1, h2]
      exact hcl.decode _ (hS _ q hq)
    have h0 : (Matrix.of (fun (r : Fin D.rows.length) => toVec N D.rows[r].val)) * B₀ = Matrix.of (fun (r : Fin D.rows.length) => stateAt n X D.rows[r].key) := by
      ext r j
      exact congrFun (hrow D.rows[r] (List.getElem_mem _)) j
    have h1 := h.2.solves h0
    have hrowB : ∀ r ∈ D.rows, toVec N r.val ᵥ* B = stateAt n X r.key := by
      intro r hr
      obtain ⟨i, hi, rfl⟩ := List.getElem_of_mem hr
      funext j
      exact congrFun (congrFun h1 ⟨i, hi⟩) j
    have hlin : Bᵀ.mulVecLin = B₀ᵀ.mulVecLin := by
      apply LinearMap.ext_on (s := {x | ∃ p ∈ snapshotPairs (mapVal (toVec N) D.rows), p.1 = x}) (by rw [hset]; exact hspan)
      rintro z ⟨p, hp, rfl⟩
      obtain ⟨r, hr, hrp⟩ := fst_mem_of_snapshotPairs hp
      obtain ⟨r', hr', rfl⟩ := List.mem_map.1 hr
      simp only [Matrix.mulVecLin_apply, Matrix.mulVec_transpose]
      rw [← hrp]
      simp only
      rw [hrowB r' hr', hrow r' hr']
    have : Bᵀ = B₀ᵀ := by
      apply Matrix.mulVec_injective
      funext z
      exact LinearMap.congr_fun hlin z
    exact Matrix.transpose_injective this

/-- **C190 (prediction).** The fitted model predicts, from any initial windows in `S` (whether or not they are training data) and for any number of steps, exactly the samples of the recurrence. -/
theorem C190_prediction_partial {k : TimeKind} {d : Int} {m : Nat} (hm : 1 ≤ m) {φ : List (List ℝ) → List ℝ} {cols : List String} {T : Transformer ℝ} {X D : Takens.Frame ℝ} (hX : Good d X)
    (hl : MinLength (m + 1) X) (hT : Causal d m X.cols cols φ T) (hD : T X = .ok D) (hs : IdsAscending D.rows ∨ EqualLengths D.rows)
    {S : Set (List (List ℝ))} {F : List (List ℝ) → List ℝ} {K₀ : Matrix (Fin N) (Fin N) ℝ} {B₀ : Matrix (Fin N) (Fin n) ℝ} (hcl : ClosedMemory S F φ K₀ B₀)
    (hF : ∀ i, HasId X.rows i → Follows m S F ((content X.rows i).map (·.2)))
    (hspan : Submodule.span ℝ {z | ∃ i q, q + m < (content X.rows i).length ∧ toVec N (φ ((((content X.rows i).map (·.2)).drop q).take m)) = z} = ⊤)
    {K : Matrix (Fin N) (Fin N) ℝ} {B : Matrix (Fin N) (Fin n) ℝ} (h : FitsDict k X D K B)
    {V : Takens.Frame ℝ} (hV : Good d V) (hVc : V.cols = X.cols) (hVl : ∀ i, HasId V.rows i → (series V.rows i).length = m) (hVS : ∀ i, HasId V.rows i → (content V.rows i).map (·.2) ∈ S)
    (dt t0 : Int) (hdt : 0 < dt) (ks : List Nat) (hks : (0 :: ks).Pairwise (· < ·)) :
    ∃ P, predictDict T K B dt V (timesAt t0 dt (0 :: ks)) = .ok P ∧ Valid P ∧ (∀ i, HasId P i ↔ HasId V.rows i) ∧
      ∀ i, HasId V.rows i → content P i = (0 :: ks).map (fun (s : Nat) => (t0 + s * dt, toVec n (((advance F)^[s] ((content V.rows i).map (·.2))).getLastD []))) := by
  obtain ⟨rfl, rfl⟩ := C190_recovery_partial hm hX hl hT hD hs hcl hF hspan h
  obtain ⟨E, hE, hEg, -, hEi, hc⟩ := hT V hV hVc (fun i hi => (hVl i hi).ge)
  have hlen : ∀ i, HasId V.rows i → (content V.rows i).length = m := fun i hi => by rw [content_length]; exact hVl i hi
  have hser : ∀ i, (series E.rows i).length ≤ 1 := by
    intro i
    rw [← content_length, hc, causal_length]
    by_cases hi : HasId V.rows i
    · rw [hlen i hi]; omega
    · have : content V.rows i = [] := by
        by_contra h'
        exact hi (hasId_content.2 h')
      rw [this]; simp
  obtain ⟨P, hP, hvP, -, hid, hcon⟩ := C26_flowmap K dt t0 hdt (mapVal (toVec N) E.rows) (mapVal_ne_nil.2 hEg.ne) (by rw [mapVal_ids]; exact nodup_ids_of_single hser) ks hks
  refine ⟨mapVal (fun z => z ᵥ* B) P, by simp only [predictDict, hE, hP], mapVal_valid.2 hvP, fun i => ?_, ?_⟩
  · rw [mapVal_hasId, hid, mapVal_hasId, hEi]
  · intro i hi
    obtain ⟨r, hr, rfl⟩ := (hEi i).2 hi
    obtain ⟨q, hq, h1, -⟩ := dict_row (n := n) hm hV hc hr
    have hq0 : q = 0 := by rw [hlen _ hi] at hq; omega
    subst hq0
    rw [List.drop_zero, List.take_of_length_le (by simp [hlen _ hi])] at h1
    have := hcon ⟨r.id, r.time, toVec N r.val⟩ (List.mem_map.2 ⟨r, hr, rfl⟩)
    simp only at this
    rw [mapVal_content, this, List.map_map]
    apply List.map_congr_left
    intro s _
    obtain ⟨h3, h4⟩ := closedMemory_iterate hcl s _ (hVS _ hi)
    simp only [Function.comp, h1, h4, hcl.decode _ h3]

/-! ## Delay embeddings -/

/-- Windows of `m` samples with `n` features. -/
def Windows (m n : Nat) : Set (List (List ℝ)) := {w | w.length = m ∧ ∀ v ∈ w, v.length = n}

/-- The linear recurrence whose next sample is the sum over `a < m` of `C a` applied to the sample `a` steps before the last one. -/
noncomputable def linearRecurrence (m n : Nat) (C : Fin m → Matrix (Fin n) (Fin n) ℝ) (w : List (List ℝ)) : List ℝ :=
  List.ofFn (fun j : Fin n => ∑ a : Fin m, (C a *ᵥ toVec n (w.getD (m - 1 - a) [])) j)

/-- The block companion matrix of the recurrence. -/
def companion {m n : Nat} (C : Fin m → Matrix (Fin n) (Fin n) ℝ) : Matrix (Fin (m * n)) (Fin (m * n)) ℝ :=
  Matrix.of (fun r s =>
    let a := finProdFinEquiv.symm r
    let b := finProdFinEquiv.symm s
    if a.1.val = 0 then C b.1 a.2 b.2 else if b.1.val + 1 = a.1.val ∧ b.2 = a.2 then 1 else 0)

/-- The projection to the first block. -/
def firstBlock (m n : Nat) : Matrix (Fin (m * n)) (Fin n) ℝ :=
  Matrix.of (fun r j => let a := finProdFinEquiv.symm r; if a.1.val = 0 ∧ a.2 = j then 1 else 0)

theorem flatMap_block {β : Type} {n : Nat} : ∀ (M : Nat) (g : Nat → List β), (∀ a < M, (g a).length = n) → ∀ a < M, ∀ j < n, ((List.range M).flatMap g)[j + n * a]? = (g a)[j]?
  | 0, _, _, a, ha, _, _ => by omega
  | M + 1, g, hg, a, ha, j, hj => by
    rw [List.range_succ_eq_map, List.flatMap_cons, List.flatMap_map]
    cases a with
    | zero => rw [List.getElem?_append_left (by rw [hg 0 (by omega)]; omega)]; simp
    | succ a =>
      rw [List.getElem?_append_right (by rw [hg 0 (by omega), Nat.mul_succ]; omega), hg 0 (by omega)]
      have := flatMap_block M (fun k => g (k + 1)) (fun b hb => hg (b + 1) (by omega)) a (by omega) j hj
      rw [← this]
      congr 1
      rw [Nat.mul_succ]; omega

/-- The embedding without lag and with consecutive delays lists the samples of the window, the last one first. -/
theorem takens_window (δ : Nat) (hδ : 1 ≤ δ) (w : List (List ℝ)) : takensFormula ⟨0, δ, 1⟩ none w = (List.range (δ + 1)).flatMap (fun a => w.getD (δ - a) []) := by
  have hlost : lost ⟨0, δ, 1⟩ = δ := by unfold lost largestDelay delay; simp; omega
  rw [takensFormula, hlost, List.range_succ_eq_map, List.flatMap_cons, List.flatMap_map]
  congr 1
  simp only [Int.toNat_natCast]
  apply List.flatMap_congr
  intro k _
  have : scaleOf (none : Option (Nat → ℝ)) k = id := rfl
  rw [this, List.map_id]
  congr 1
  unfold delay
  simp; omega

theorem toVec_takens {δ n : Nat} (hδ : 1 ≤ δ) {w : List (List ℝ)} (hw : w ∈ Windows (δ + 1) n) (a : Fin (δ + 1)) (j : Fin n) :
    toVec ((δ + 1) * n) (takensFormula ⟨0, δ, 1⟩ none w) (finProdFinEquiv (a, j)) = toVec n (w.getD (δ - a) []) j := by
  rw [toVec, toVec, takens_window δ hδ, List.getD_eq_getElem?_getD, List.getD_eq_getElem?_getD]
  congr 1
  apply flatMap_block _ _ _ a a.2 j j.2
  intro b hb
  have hlt : δ - b < w.length := by rw [hw.1]; omega
  rw [List.getD_eq_getElem?_getD, List.getElem?_eq_getElem hlt]
  exact hw.2 _ (List.getElem_mem hlt)

theorem advance_getD {m n : Nat} (hm : 1 ≤ m) {F : List (List ℝ) → List ℝ} {w : List (List ℝ)} (hw : w ∈ Windows m n) (a : Nat) (ha : a < m) :
    (advance F w).getD (m - 1 - a) [] = if a = 0 then F w else w.getD (m - 1 - (a - 1)) [] := by
  have hl := hw.1
  unfold advance
  rw [List.getD_eq_getElem?_getD]
  split
  · rename_i h0
    subst h0
    rw [List.getElem?_append_right (by simp [hl])]
    simp [hl]
  · rw [List.getElem?_append_left (by simp [hl]; omega), List.getElem?_tail, List.getD_eq_getElem?_getD]
    congr 2
    omega

/-- Delay embeddings are closed under linear recurrences. -/
theorem takens_closed {δ n : Nat} (hδ : 1 ≤ δ) (C : Fin (δ + 1) → Matrix (Fin n) (Fin n) ℝ) :
    ClosedMemory (Windows (δ + 1) n) (linearRecurrence (δ + 1) n C) (takensFormula ⟨0, δ, 1⟩ none) (companion C) (firstBlock (δ + 1) n) := by
  have hstay : ∀ w ∈ Windows (δ + 1) n, advance (linearRecurrence (δ + 1) n C) w ∈ Windows (δ + 1) n := by
    rintro w ⟨h1, h2⟩
    refine ⟨by simp [advance, h1], ?_⟩
    intro v hv
    rcases List.mem_append.1 hv with hv | hv
    · exact h2 v (List.mem_of_mem_tail hv)
    · rw [List.mem_singleton.1 hv]; simp [linearRecurrence]
  refine ⟨hstay, ?_, ?_⟩
  · intro w hw
    funext r
    obtain ⟨⟨a, j⟩, rfl⟩ := finProdFinEquiv.surjective r
    rw [toVec_takens hδ (hstay w hw), Matrix.mulVec, dotProduct, ← finProdFinEquiv.sum_comp, Fintype.sum_prod_type]
    have e := advance_getD (F := linearRecurrence (δ + 1) n C) (by omega) hw a a.2
    rw [Nat.add_sub_cancel] at e
    rw [e]
    simp only [toVec_takens hδ hw, companion, Matrix.of_apply, Equiv.symm_apply_apply]
    by_cases ha : a.val = 0
    · simp only [ha, if_true]
      rw [toVec, linearRecurrence]
      simp [List.getD_eq_getElem?_getD, Matrix.mulVec, dotProduct]
    · simp only [ha, if_false]
      rw [Finset.sum_eq_single (⟨a.val - 1, by omega⟩ : Fin (δ + 1)), Finset.sum_eq_single j]
      · rw [if_pos ⟨by simp; omega, rfl⟩, one_mul]
      · intro b _ hb
        rw [if_neg (fun h => hb h.2), zero_mul]
      · simp
      · intro b _ hb
        apply Finset.sum_eq_zero
        intro l _
        rw [if_neg, zero_mul]
        rintro ⟨h, -⟩
        apply hb
        apply Fin.ext
        simp; omega
      · simp
  · intro w hw
    funext j
    rw [Matrix.vecMul, dotProduct, ← finProdFinEquiv.sum_comp, Fintype.sum_prod_type]
    simp only [toVec_takens hδ hw, firstBlock, Matrix.of_apply, Equiv.symm_apply_apply]
    rw [Finset.sum_eq_single 0, Finset.sum_eq_single j]
    · have hl := hw.1
      simp [List.getLastD_eq_getLast?, List.getLast?_eq_getElem?, hl, List.getD_eq_getElem?_getD]
    · intro b _ hb
      simp [hb]
    · simp
    · intro b _ hb
      apply Finset.sum_eq_zero
      intro l _
      rw [if_neg, mul_zero]
      rintro ⟨h, -⟩
      exact hb (Fin.ext h)
    · simp

end Verif.Edmd

namespace Verif.Edmd

open Verif.Tsc Verif.Np Verif.Dyn Verif.Lin Verif.Dict Verif.Takens Verif.Dmd Matrix

/-- The embedding returns the series in the order of their IDs. -/
theorem takens_ascending {p : Params} {w : Option (Nat → ℝ)} {X Y Z : Takens.Frame ℝ} {T : Transformer ℝ} (hT : takensStep p w X = .ok T) (hv : Valid Y.rows) (hr : Rect Y.cols.length Y.rows)
    (hZ : T Y = .ok Z) : IdsAscending Z.rows := by
  unfold takensStep at hT
  cases hf : Takens.fit p .int X with
  | error e => rw [hf] at hT; simp at hT
  | ok f =>
    rw [hf] at hT
    simp only [Except.ok.injEq] at hT
    subst hT
    cases h : Takens.transform f w .int Y with
    | error e => simp only [h] at hZ; simp at hZ
    | ok Z' =>
      simp only [h, Except.ok.injEq] at hZ
      subst hZ
      obtain ⟨hb, -, -⟩ := build_ok_iff.1 ((transform_eq f w .int Y Z').1 h).2.2.2.2.1
      rw [← hb]
      unfold IdsAscending outRows
      rw [List.map_flatMap, List.pairwise_flatMap]
      have hid : ∀ i, ∀ x ∈ (takensSeries f.delays (kappaVec w f.delays.length f.cols.length) ((content Y.rows i).map (fun q => (⟨i, q.1, q.2⟩ : Row Int (List ℝ))))).map (·.id), x = i := by
        intro i x hx
        obtain ⟨r, hr, rfl⟩ := List.mem_map.1 hx
        unfold takensSeries at hr
        obtain ⟨j, hj, rfl⟩ := List.getElem_of_mem hr
        simp only [List.length_zipWith, lt_min_iff] at hj
        simp only [List.getElem_zipWith, List.getElem_drop, List.getElem_map]
      refine ⟨fun i _ => ?_, ?_⟩
      · exact List.pairwise_of_forall_mem_list (fun a ha b hb => by rw [hid i a ha, hid i b hb])
      · exact (ids_sorted Y.rows).imp (fun {i j} hij a ha b hb => by rw [hid i a ha, hid j b hb]; exact hij.le)

/-- What `fit` stores for a dictionary with only the embedding. -/
theorem takens_fit {p : Params} {w : Option (Nat → ℝ)} {d : Int} {X D : Takens.Frame ℝ} {f : Fit ℝ} {includeId : Bool} (hX : Good d X) (hl : MinLength (lost p + 1) X)
    (h : fitDict [takensStep p w] includeId none X = .ok (f, D)) :
    ∃ cols, Causal d (lost p + 1) X.cols cols (takensFormula p w) (Dict.transform f includeId) ∧ Dict.transform f includeId X = .ok D ∧
      ∀ Y Z, Good d Y → Dict.transform f includeId Y = .ok Z → IdsAscending Z.rows := by
  unfold fitDict at h
  simp only [fitSteps] at h
  cases hT : takensStep p w X with
  | error e => rw [hT] at h; simp at h
  | ok T =>
    rw [hT] at h
    simp only at h
    cases hY : T X with
    | error e => rw [hY] at h; simp at h
    | ok Y =>
      rw [hY] at h
      simp only at h
      obtain ⟨rest, hn, hc⟩ := takens_formula p w hX hl hT hY
      obtain ⟨Y', hY', -, hYc, -, -⟩ := hc X hX rfl hl
      rw [hY] at hY'
      cases hY'
      have hp : preserves none X.cols Y.cols = true := by
        simp only [preserves, List.all_eq_true, decide_eq_true_eq]
        intro a ha
        rw [hYc]; exact List.mem_append_left _ ha
      rw [hp] at h
      simp only [withState, Bool.not_true, Bool.and_false, Bool.false_eq_true, if_false] at h
      split at h
      · simp at h
      · simp only [Except.ok.injEq, Prod.mk.injEq] at h
        obtain ⟨rfl, rfl⟩ := h
        have htr : ∀ a Z, Dict.transform (⟨[T], X.cols, a, true⟩ : Fit ℝ) includeId Z = T Z := by
          intro a Z
          simp only [Dict.transform, runSteps, withState, Bool.not_true, Bool.and_false, Bool.false_eq_true, if_false]
          cases T Z <;> rfl
        refine ⟨X.cols ++ rest, ?_, by rw [htr, hY], fun Y Z hY hZ => takens_ascending hT hY.valid hY.rect (by rwa [htr] at hZ)⟩
        intro Z hZ hZc hZl
        rw [htr]
        exact hc Z hZ hZc hZl

/-- The windows with a successor span the space of all windows. -/
def WindowsSpan (m n : Nat) (X : Takens.Frame ℝ) : Prop :=
  Submodule.span ℝ {z : Fin m × Fin n → ℝ | ∃ i q, q + m < (content X.rows i).length ∧ z = fun p => toVec n (((content X.rows i).map (·.2)).getD (q + (m - 1 - p.1)) []) p.2} = ⊤

theorem good_windows {d : Int} {X : Takens.Frame ℝ} (hX : Good d X) {n : Nat} (hn : X.cols.length = n) (m i q : Nat) (hq : q + m ≤ (content X.rows i).length) :
    (((content X.rows i).map (·.2)).drop q).take m ∈ Windows m n := by
  refine ⟨by simp; omega, ?_⟩
  intro v hv
  have := List.mem_of_mem_drop (List.mem_of_mem_take hv)
  obtain ⟨p, hp, rfl⟩ := List.mem_map.1 this
  rw [hX.lengths i p hp, hn]

theorem takens_span {δ n : Nat} (hδ : 1 ≤ δ) {d : Int} {X : Takens.Frame ℝ} (hX : Good d X) (hn : X.cols.length = n) (hspan : WindowsSpan (δ + 1) n X) :
    Submodule.span ℝ {z | ∃ i q, q + (δ + 1) < (content X.rows i).length ∧
      toVec ((δ + 1) * n) (takensFormula ⟨0, δ, 1⟩ none ((((content X.rows i).map (·.2)).drop q).take (δ + 1))) = z} = ⊤ := by
  set e : (Fin (δ + 1) × Fin n → ℝ) ≃ₗ[ℝ] (Fin ((δ + 1) * n) → ℝ) := LinearEquiv.funCongrLeft ℝ ℝ finProdFinEquiv.symm with he
  have h1 := congrArg (Submodule.map e.toLinearMap) hspan
  rw [Submodule.map_span, Submodule.map_top, LinearEquiv.range] at h1
  rw [← h1]
  congr 1
  have key : ∀ i q, q + (δ + 1) < (content X.rows i).length → toVec ((δ + 1) * n) (takensFormula ⟨0, δ, 1⟩ none ((((content X.rows i).map (·.2)).drop q).take (δ + 1))) =
      e (fun p => toVec n (((content X.rows i).map (·.2)).getD (q + (δ + 1 - 1 - p.1)) []) p.2) := by
    intro i q hq
    funext r
    obtain ⟨⟨a, j⟩, rfl⟩ := finProdFinEquiv.surjective r
    rw [toVec_takens hδ (good_windows hX hn _ i q (by omega))]
    simp only [he, LinearEquiv.funCongrLeft_apply, LinearMap.funLeft_apply, Equiv.symm_apply_apply]
    rw [List.getD_eq_getElem?_getD, List.getD_eq_getElem?_getD, List.getElem?_take_of_lt (by omega), List.getElem?_drop, Nat.add_sub_cancel]
  ext z
  simp only [Set.mem_setOf_eq, Set.mem_image]
  constructor
  · rintro ⟨i, q, hq, rfl⟩
    exact ⟨_, ⟨i, q, hq, rfl⟩, (key i q hq).symm⟩
  · rintro ⟨_, ⟨i, q, hq, rfl⟩, rfl⟩
    exact ⟨i, q, hq, key i q hq⟩

/-- **C190 (linear recurrences).** If the data follow a linear recurrence of order `δ + 1`, the dictionary is the delay embedding with `δ` delays and the windows span the space, then every fitted
model has the companion matrix of the recurrence as its system matrix, reads the state from the first block, and predicts the recurrence exactly from any initial window, for any number of steps.
The IDs may have any order. -/
theorem C190_takens {k : TimeKind} {d : Int} {δ n : Nat} (hδ : 1 ≤ δ) (C : Fin (δ + 1) → Matrix (Fin n) (Fin n) ℝ) {includeId : Bool} {X D : Takens.Frame ℝ} {f : Fit ℝ} (hX : Good d X)
    (hn : X.cols.length = n) (hl : MinLength (δ + 2) X) (hfit : fitDict [takensStep ⟨0, δ, 1⟩ none] includeId none X = .ok (f, D))
    (hF : ∀ i q, q + (δ + 1) < (content X.rows i).length →
      ((content X.rows i).map (·.2))[q + (δ + 1)]? = some (linearRecurrence (δ + 1) n C ((((content X.rows i).map (·.2)).drop q).take (δ + 1))))
    (hspan : WindowsSpan (δ + 1) n X) {K : Matrix (Fin ((δ + 1) * n)) (Fin ((δ + 1) * n)) ℝ} {B : Matrix (Fin ((δ + 1) * n)) (Fin n) ℝ} (h : FitsDict k X D K B) :
    K = companion C ∧ B = firstBlock (δ + 1) n ∧
    ∀ {V : Takens.Frame ℝ}, Good d V → V.cols = X.cols → (∀ i, HasId V.rows i → (series V.rows i).length = δ + 1) →
      ∀ (dt t0 : Int), 0 < dt → ∀ (ks : List Nat), (0 :: ks).Pairwise (· < ·) →
      ∃ P, predictDict (Dict.transform f includeId) K B dt V (timesAt t0 dt (0 :: ks)) = .ok P ∧ Valid P ∧ (∀ i, HasId P i ↔ HasId V.rows i) ∧
        ∀ i, HasId V.rows i → content P i = (0 :: ks).map (fun (s : Nat) =>
          (t0 + s * dt, toVec n (((advance (linearRecurrence (δ + 1) n C))^[s] ((content V.rows i).map (·.2))).getLastD []))) := by
  have hlost : lost ⟨0, δ, 1⟩ = δ := by unfold lost largestDelay delay; simp; omega
  obtain ⟨cols, hc, hD, ha⟩ := takens_fit hX (by rw [hlost]; exact fun i hi => by have := hl i hi; omega) hfit
  rw [hlost] at hc
  have hcl := takens_closed hδ C
  have hfo : ∀ i, HasId X.rows i → Follows (δ + 1) (Windows (δ + 1) n) (linearRecurrence (δ + 1) n C) ((content X.rows i).map (·.2)) :=
    fun i _ => ⟨fun q hq => good_windows hX hn _ i q (by simpa using hq), fun q hq => hF i q (by simpa using hq)⟩
  have hsp := takens_span hδ hX hn hspan
  obtain ⟨hK, hB⟩ := C190_recovery_partial (by omega) hX hl hc hD (Or.inl (ha _ _ hX hD)) hcl hfo hsp h
  refine ⟨hK, hB, ?_⟩
  intro V hV hVc hVl dt t0 hdt ks hks
  refine C190_prediction_partial (by omega) hX hl hc hD (Or.inl (ha _ _ hX hD)) hcl hfo hsp h hV hVc hVl ?_ dt t0 hdt ks hks
  intro i hi
  have hlen : (content V.rows i).length = δ + 1 := by rw [content_length]; exact hVl i hi
  have := good_windows hV (by rw [hVc, hn]) (δ + 1) i 0 (by omega)
  rwa [List.drop_zero, List.take_of_length_le (by simp [hlen])] at this

/-! ## Partially observed linear systems -/

/-- The observations `H x` of the state after `t` steps of `x ↦ A x`. -/
def observed {M n : Nat} (A : Matrix (Fin M) (Fin M) ℝ) (H : Matrix (Fin n) (Fin M) ℝ) (z : Fin M → ℝ) (t : Nat) : List ℝ := List.ofFn (H *ᵥ (A ^ t *ᵥ z))

/-- The coefficients of the characteristic polynomial, as a recurrence. -/
noncomputable def charCoeffs {M : Nat} (n : Nat) (A : Matrix (Fin M) (Fin M) ℝ) (a : Fin M) : Matrix (Fin n) (Fin n) ℝ := (-(A.charpoly.coeff (M - 1 - a))) • (1 : Matrix (Fin n) (Fin n) ℝ)

theorem toVec_ofFn {n : Nat} (v : Fin n → ℝ) : toVec n (List.ofFn v) = v := by
  funext j
  simp [toVec, List.getD_eq_getElem?_getD]

theorem cayley_pow {M : Nat} (A : Matrix (Fin M) (Fin M) ℝ) : A ^ M = ∑ a : Fin M, (-(A.charpoly.coeff (M - 1 - a))) • A ^ (M - 1 - a.val) := by
  have h := Matrix.aeval_self_charpoly A
  rw [(Matrix.charpoly_monic A).as_sum, Matrix.charpoly_natDegree_eq_dim, Fintype.card_fin] at h
  simp only [map_add, map_pow, Polynomial.aeval_X, map_sum, map_mul, Polynomial.aeval_C] at h
  have h2 : ∑ a : Fin M, (-(A.charpoly.coeff (M - 1 - a))) • A ^ (M - 1 - a.val) = -∑ i ∈ Finset.range M, (algebraMap ℝ (Matrix (Fin M) (Fin M) ℝ)) (A.charpoly.coeff i) * A ^ i := by
    rw [← Finset.sum_range_reflect, Fin.sum_univ_eq_sum_range (fun a => (-(A.charpoly.coeff (M - 1 - a))) • A ^ (M - 1 - a)), ← Finset.sum_neg_distrib]
    apply Finset.sum_congr rfl
    intro a _
    rw [neg_smul, Algebra.smul_def]
  rw [h2]
  exact eq_neg_of_add_eq_zero_left h

/-- Cayley–Hamilton: the observations satisfy a linear recurrence. -/
theorem observed_recurrence {M n : Nat} (A : Matrix (Fin M) (Fin M) ℝ) (H : Matrix (Fin n) (Fin M) ℝ) (z : Fin M → ℝ) (t : Nat) :
    linearRecurrence M n (charCoeffs n A) ((List.range M).map (fun q => observed A H z (t + q))) = observed A H z (t + M) := by
  unfold linearRecurrence
  rw [observed]
  congr 1
  funext j
  have h1 : ∀ a : Fin M, toVec n (((List.range M).map (fun q => observed A H z (t + q))).getD (M - 1 - a) []) = H *ᵥ (A ^ (t + (M - 1 - a.val)) *ᵥ z) := by
    intro a
    have : M - 1 - a.val < M := by have := a.2; omega
    rw [List.getD_eq_getElem?_getD, List.getElem?_map, List.getElem?_range this]
    simp only [Option.map_some, Option.getD_some, observed, toVec_ofFn]
  simp only [h1, charCoeffs, Matrix.smul_mulVec, Matrix.one_mulVec]
  rw [pow_add, cayley_pow A, Finset.mul_sum]
  simp only [Matrix.mul_smul, ← pow_add, Matrix.sum_mulVec, Matrix.mulVec_sum, Matrix.smul_mulVec, Matrix.mulVec_smul, Finset.sum_apply]

theorem observed_advance {M n : Nat} (hM : 1 ≤ M) (A : Matrix (Fin M) (Fin M) ℝ) (H : Matrix (Fin n) (Fin M) ℝ) (z : Fin M → ℝ) (s : Nat) :
    (advance (linearRecurrence M n (charCoeffs n A)))^[s] ((List.range M).map (observed A H z)) = (List.range M).map (fun q => observed A H z (s + q)) := by
  induction s with
  | zero => simp
  | succ s ih =>
    rw [Function.iterate_succ_apply', ih, advance, observed_recurrence]
    obtain ⟨L, rfl⟩ : ∃ L, M = L + 1 := ⟨M - 1, by omega⟩
    conv_lhs => rw [List.range_succ_eq_map]
    rw [List.range_succ, List.map_append]
    simp only [List.map_cons, List.tail_cons, List.map_map]
    congr 1
    · apply List.map_congr_left
      intro q _
      simp only [Function.comp]
      congr 1; omega
    · simp only [List.map_cons, List.map_nil]
      congr 2; omega

/-- **C190 (partially observed linear systems).** If the data are observations `H x` of trajectories of a linear system with `δ + 1` states, then EDMD with the embedding of `δ` delays predicts all
future observations exactly, from any `δ + 1` successive observations of the system: the hidden states need not be measured. -/
theorem C190_observed {k : TimeKind} {d : Int} {δ n : Nat} (hδ : 1 ≤ δ) (A : Matrix (Fin (δ + 1)) (Fin (δ + 1)) ℝ) (H : Matrix (Fin n) (Fin (δ + 1)) ℝ) {includeId : Bool} {X D : Takens.Frame ℝ}
    {f : Fit ℝ} (hX : Good d X) (hn : X.cols.length = n) (hl : MinLength (δ + 2) X) (hfit : fitDict [takensStep ⟨0, δ, 1⟩ none] includeId none X = .ok (f, D))
    (x : Nat → Fin (δ + 1) → ℝ) (hF : ∀ i, HasId X.rows i → (content X.rows i).map (·.2) = (List.range (content X.rows i).length).map (observed A H (x i)))
    (hspan : WindowsSpan (δ + 1) n X) {K : Matrix (Fin ((δ + 1) * n)) (Fin ((δ + 1) * n)) ℝ} {B : Matrix (Fin ((δ + 1) * n)) (Fin n) ℝ} (h : FitsDict k X D K B)
    {V : Takens.Frame ℝ} (hV : Good d V) (hVc : V.cols = X.cols) (z : Nat → Fin (δ + 1) → ℝ)
    (hVF : ∀ i, HasId V.rows i → (content V.rows i).map (·.2) = (List.range (δ + 1)).map (observed A H (z i))) (dt t0 : Int) (hdt : 0 < dt) (ks : List Nat) (hks : (0 :: ks).Pairwise (· < ·)) :
    ∃ P, predictDict (Dict.transform f includeId) K B dt V (timesAt t0 dt (0 :: ks)) = .ok P ∧ Valid P ∧ (∀ i, HasId P i ↔ HasId V.rows i) ∧
      ∀ i, HasId V.rows i → content P i = (0 :: ks).map (fun (s : Nat) => (t0 + s * dt, H *ᵥ (A ^ (δ + s) *ᵥ z i))) := by
  have hrec : ∀ i q, q + (δ + 1) < (content X.rows i).length →
      ((content X.rows i).map (·.2))[q + (δ + 1)]? = some (linearRecurrence (δ + 1) n (charCoeffs n A) ((((content X.rows i).map (·.2)).drop q).take (δ + 1))) := by
    intro i q hq
    have hi : HasId X.rows i := hasId_content.2 (by intro h; rw [h] at hq; simp at hq)
    have hw : ((((content X.rows i).map (·.2)).drop q).take (δ + 1)) = (List.range (δ + 1)).map (fun j => observed A H (x i) (q + j)) := by
      rw [hF i hi]
      apply List.ext_getElem
      · simp; omega
      · intro j h1 h2; simp
    rw [hw, observed_recurrence, hF i hi, List.getElem?_map, List.getElem?_range hq]
    rfl
  have hVl : ∀ i, HasId V.rows i → (series V.rows i).length = δ + 1 := by
    intro i hi
    have := congrArg List.length (hVF i hi)
    simpa [content] using this
  obtain ⟨P, h1, h2, h3, h4⟩ := (C190_takens hδ (charCoeffs n A) hX hn hl hfit hrec hspan h).2.2 hV hVc hVl dt t0 hdt ks hks
  refine ⟨P, h1, h2, h3, ?_⟩
  intro i hi
  rw [h4 i hi]
  apply List.map_congr_left
  intro s _
  rw [hVF i hi, observed_advance (by omega), List.range_succ, List.map_append]
  simp only [List.map_cons, List.map_nil, List.getLastD_concat, observed, toVec_ofFn]
  rw [Nat.add_comm s δ]

/-- A fitted model exists. -/
theorem C190_exists {d : Int} {m N n : Nat} {φ : List (List ℝ) → List ℝ} {cols : List String} {T : Transformer ℝ} {X D : Takens.Frame ℝ} (hX : Good d X)
    (hl : MinLength (m + 1) X) (hT : Causal d m X.cols cols φ T) (hD : T X = .ok D) : ∃ (K : Matrix (Fin N) (Fin N) ℝ) (B : Matrix (Fin N) (Fin n) ℝ), FitsDict .int X D K B := by
  obtain ⟨D', hD', hDg, -, hDi, hc⟩ := hT X hX rfl (fun i hi => by have := hl i hi; omega)
  rw [hD] at hD'
  cases hD'
  have h2 : MinLength 2 D := by
    intro i hi
    have := hl i ((hDi i).1 hi)
    rw [← content_length, hc, causal_length, content_length]
    omega
  obtain ⟨K, hK⟩ := C30_exists (c := mapVal (toVec N) D.rows) (k := .int) (mapVal_ne_nil.2 hDg.ne) (fun i hi => by rw [mapVal_series, mapVal_length]; exact h2 i (mapVal_hasId.1 hi))
    (by rw [mapVal_isConstDeltaTime]; exact (isConstDelta_iff hDg.ne hDg.valid hDg.moderate).2 ⟨d, hDg.regular le_rfl h2⟩)
  obtain ⟨B, hB⟩ := exists_normal (Matrix.of (fun (r : Fin D.rows.length) => toVec N D.rows[r].val)) (Matrix.of (fun (r : Fin D.rows.length) => stateAt n X D.rows[r].key))
  exact ⟨K, B, hK, (isLstsqM_iff _ _ _).2 hB⟩

/-! ## Fibonacci numbers -/

/-- Two series of Fibonacci numbers; the IDs descend. -/
def exFib : Takens.Frame ℝ := ⟨["y"], [⟨3, 0, [1]⟩, ⟨3, 1, [1]⟩, ⟨3, 2, [2]⟩, ⟨3, 3, [3]⟩, ⟨1, 5, [0]⟩, ⟨1, 6, [1]⟩, ⟨1, 7, [1]⟩]⟩

/-- The system `(a, b) ↦ (b, a + b)`. -/
def fibA : Matrix (Fin (1 + 1)) (Fin (1 + 1)) ℝ := !![0, 1; 1, 1]

/-- Only the first state is observed. -/
def fibH : Matrix (Fin 1) (Fin (1 + 1)) ℝ := !![1, 0]

/-- The initial states. -/
def fibX (i : Nat) : Fin (1 + 1) → ℝ := if i = 3 then ![1, 1] else ![0, 1]

theorem exFib_good : Good 1 exFib := by
  refine ⟨by simp [exFib], ?_, ?_, ?_, by norm_num⟩
  · exact (valid_iff _).2 ⟨by decide +kernel, by simp [Before, exFib]⟩
  · unfold Rect; decide +kernel
  · intro i
    by_cases h0 : i = 3
    · subst h0; decide +kernel
    by_cases h1 : i = 1
    · subst h1; decide +kernel
    · have : timesOf exFib.rows i = [] := by simp [timesOf, series, exFib, Ne.symm h0, Ne.symm h1]
      simp [this, consecutive]

theorem exFib_three : (content exFib.rows 3) = [(0, [1]), (1, [1]), (2, [2]), (3, [3])] := by simp [content, series, exFib]

theorem exFib_one : (content exFib.rows 1) = [(5, [0]), (6, [1]), (7, [1])] := by simp [content, series, exFib]

theorem fib_observed (z : Fin (1 + 1) → ℝ) : observed fibA fibH z 0 = [z 0] ∧ observed fibA fibH z 1 = [z 1] ∧ observed fibA fibH z 2 = [z 0 + z 1] ∧ observed fibA fibH z 3 = [z 0 + 2 * z 1] := by
  refine ⟨?_, ?_, ?_, ?_⟩ <;>
    simp [observed, fibA, fibH, Matrix.mulVec, dotProduct, Fin.sum_univ_two, pow_succ]
  norm_num

/-- non-vacuity of `C190_observed` (and with it `C190_takens`, `C190_recovery_partial` and `C190_prediction_partial`): the recurrence of the Fibonacci numbers is found from two short series, and the
model exists -/
example : Good 1 exFib ∧ exFib.cols.length = 1 ∧ MinLength 3 exFib ∧
    (∀ i, HasId exFib.rows i → (content exFib.rows i).map (·.2) = (List.range (content exFib.rows i).length).map (observed fibA fibH (fibX i))) ∧ WindowsSpan 2 1 exFib ∧
    ∃ f D, fitDict [takensStep ⟨0, (1 : Nat), 1⟩ none] false none exFib = .ok (f, D) ∧
      ∃ (K : Matrix (Fin (2 * 1)) (Fin (2 * 1)) ℝ) (B : Matrix (Fin (2 * 1)) (Fin 1) ℝ), FitsDict .int exFib D K B := by
  have hl : MinLength 3 exFib := by
    rintro i ⟨r, hr, rfl⟩
    simp only [exFib, List.mem_cons, List.not_mem_nil, or_false] at hr
    rcases hr with rfl | rfl | rfl | rfl | rfl | rfl | rfl <;> decide +kernel
  have hi : ∀ i, HasId exFib.rows i → i = 3 ∨ i = 1 := by
    rintro i ⟨r, hr, rfl⟩
    simp only [exFib, List.mem_cons, List.not_mem_nil, or_false] at hr
    rcases hr with rfl | rfl | rfl | rfl | rfl | rfl | rfl <;> simp
  refine ⟨exFib_good, rfl, hl, ?_, ?_, ?_⟩
  · intro i h
    rcases hi i h with rfl | rfl
    · obtain ⟨h0, h1, h2, h3⟩ := fib_observed (fibX 3)
      rw [exFib_three]
      simp only [List.length_cons, List.length_nil, List.range_succ, List.range_zero, List.nil_append, List.cons_append, List.map_cons, List.map_nil, zero_add, Nat.reduceAdd, h0, h1, h2, h3]
      norm_num [fibX]
    · obtain ⟨h0, h1, h2, -⟩ := fib_observed (fibX 1)
      rw [exFib_one]
      simp only [List.length_cons, List.length_nil, List.range_succ, List.range_zero, List.nil_append, List.cons_append, List.map_cons, List.map_nil, zero_add, Nat.reduceAdd, h0, h1, h2]
      norm_num [fibX]
  · unfold WindowsSpan
    rw [eq_top_iff]
    intro z _
    set W := {z : Fin 2 × Fin 1 → ℝ | ∃ i q, q + 2 < (content exFib.rows i).length ∧ z = fun p => toVec 1 (((content exFib.rows i).map (·.2)).getD (q + (2 - 1 - p.1)) []) p.2} with hW
    have m1 : (fun p : Fin 2 × Fin 1 => (1 : ℝ)) ∈ Submodule.span ℝ W := by
      refine Submodule.subset_span ⟨3, 0, by rw [exFib_three]; decide, ?_⟩
      rw [exFib_three]
      funext ⟨a, j⟩
      fin_cases a <;> fin_cases j <;> simp [toVec]
    have m2 : (fun p : Fin 2 × Fin 1 => if p.1 = 0 then (2 : ℝ) else 1) ∈ Submodule.span ℝ W := by
      refine Submodule.subset_span ⟨3, 1, by rw [exFib_three]; decide, ?_⟩
      rw [exFib_three]
      funext ⟨a, j⟩
      fin_cases a <;> fin_cases j <;> simp [toVec]
    have : z = (2 * z (1, 0) - z (0, 0)) • (fun p : Fin 2 × Fin 1 => (1 : ℝ)) + (z (0, 0) - z (1, 0)) • (fun p : Fin 2 × Fin 1 => if p.1 = 0 then (2 : ℝ) else 1) := by
      funext ⟨a, j⟩
      fin_cases a <;> fin_cases j <;> simp <;> ring
    rw [this]
    exact add_mem (Submodule.smul_mem _ _ m1) (Submodule.smul_mem _ _ m2)
  · obtain ⟨⟨f, D⟩, hf, -⟩ := ok_of_any (e := fitDict [takensStep ⟨0, (1 : Nat), 1⟩ none] false none exFib) (P := fun p => decide (p.1.nIc = 2)) (by decide +kernel)
    have hlost : lost ⟨0, (1 : Nat), 1⟩ = 1 := by unfold lost largestDelay delay; simp
    obtain ⟨cols, hc, hD, -⟩ := takens_fit exFib_good (by rw [hlost]; exact fun i hi => by have := hl i hi; omega) hf
    exact ⟨f, D, hf, C190_exists exFib_good hl (by rw [hlost] at hc; exact hc) hD⟩

end Verif.Edmd
