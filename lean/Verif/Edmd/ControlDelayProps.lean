import Verif.Edmd.ControlDelay
import Verif.Edmd.DelayProps
import Verif.Dmd.ControlProps
/-! # Property C191: EDMD with control is exact for controlled systems under which the dictionary is closed -/

namespace Verif.Edmd

open Verif.Tsc Verif.Np Verif.Dyn Verif.Lin Verif.Dict Verif.Takens Verif.Dmd Matrix

variable {N n nu : Nat}

/-! ## Specification -/

/-- The window of the next step of a controlled recurrence: the oldest sample is dropped and the next sample `F w u` appended. -/
def steer (F : List (List ℝ) → (Fin nu → ℝ) → List ℝ) (w : List (List ℝ)) (u : Fin nu → ℝ) : List (List ℝ) := w.tail ++ [F w u]

/-- The window after `k` steps with the control inputs `u 0, u 1, …`. -/
def steered (F : List (List ℝ) → (Fin nu → ℝ) → List ℝ) (w : List (List ℝ)) (u : Nat → Fin nu → ℝ) : Nat → List (List ℝ)
  | 0 => w
  | k + 1 => steer F (steered F w u k) (u k)

/-- The series `i` follows the controlled recurrence `F` with memory of `m` samples: each sample is `F` of the `m` samples before it and of the control input at the time of the last of them; all windows
are in `S`. -/
def FollowsControl (m : Nat) (S : Set (List (List ℝ))) (F : List (List ℝ) → (Fin nu → ℝ) → List ℝ) (X : Takens.Frame ℝ) (U : List (Row Int (Fin nu → ℝ))) (i : Nat) : Prop :=
  (∀ q, q + m ≤ (content X.rows i).length → (((content X.rows i).map (·.2)).drop q).take m ∈ S) ∧
  ∀ q, q + m < (content X.rows i).length → ∀ r ∈ U, r.id = i → r.time = ((content X.rows i).map (·.1)).getD (q + m - 1) 0 →
    ((content X.rows i).map (·.2))[q + m]? = some (F ((((content X.rows i).map (·.2)).drop q).take m) r.val)

/-- The dictionary `φ` on windows is closed under the controlled recurrence: its values after one step are a linear function of its values before and of the control input, and the current state is a linear
function of the dictionary. -/
structure ClosedControl (S : Set (List (List ℝ))) (F : List (List ℝ) → (Fin nu → ℝ) → List ℝ) (φ : List (List ℝ) → List ℝ) (A₀ : Matrix (Fin N) (Fin N) ℝ) (E₀ : Matrix (Fin N) (Fin nu) ℝ)
    (B₀ : Matrix (Fin N) (Fin n) ℝ) : Prop where
  stays : ∀ w ∈ S, ∀ u, steer F w u ∈ S
  step : ∀ w ∈ S, ∀ u, toVec N (φ (steer F w u)) = A₀ *ᵥ toVec N (φ w) + E₀ *ᵥ u
  decode : ∀ w ∈ S, toVec N (φ w) ᵥ* B₀ = toVec n (w.getLastD [])

/-- There is a control input for exactly the samples that are not the last of their series. -/
def ControlsAll (X : Takens.Frame ℝ) (U : List (Row Int (Fin nu → ℝ))) : Prop :=
  ∀ k : Key Int, (∃ u ∈ U, u.key = k) ↔ (∃ r ∈ X.rows, r.key = k) ∧ ∃ r ∈ X.rows, r.id = k.id ∧ k.time < r.time

/-! ## Lemmas -/

theorem find_of_mem {V : Type} {U : List (Row Int V)} (hv : (U.map (·.key)).Nodup) {u : Row Int V} (hu : u ∈ U) {k : Key Int} (hk : u.key = k) :
    U.find? (fun x => decide (x.key = k)) = some u := by
  cases h : U.find? (fun x => decide (x.key = k)) with
  | none =>
    have := List.find?_eq_none.1 h u hu
    simp [hk] at this
  | some x =>
    have hx := List.find?_some h
    have hxm := List.mem_of_find?_eq_some h
    simp only [decide_eq_true_eq] at hx
    rw [List.inj_on_of_nodup_map hv hxm hu (hx.trans hk.symm)]

theorem Valid.keys_nodup {V : Type} {c : List (Row Int V)} (hv : Valid c) : (c.map (·.key)).Nodup := nodup_keys_of_pairwise c ((valid_iff c).1 hv).2

theorem mem_align {V W : Type} {nIc : Nat} {D : List (Row Int V)} {U : List (Row Int W)} {u : Row Int W} (h : u ∈ alignControl nIc D U) : u ∈ U := by
  unfold alignControl at h
  split at h
  · obtain ⟨r, -, hr⟩ := List.mem_filterMap.1 h
    exact List.mem_of_find?_eq_some hr
  · exact h

theorem align_mem {V W : Type} {nIc : Nat} {D : List (Row Int V)} {U : List (Row Int W)} (hU : Valid U) {u : Row Int W} (hu : u ∈ U) {r : Row Int V} (hr : r ∈ D) (hk : u.key = r.key) :
    u ∈ alignControl nIc D U := by
  unfold alignControl
  split
  · exact List.mem_filterMap.2 ⟨r, hr, find_of_mem (Valid.keys_nodup hU) hu hk⟩
  · exact hu

theorem matches_nodup {ι κ : Type} {c : List (Row Int (ι → ℝ))} {u : List (Row Int (κ → ℝ))} (hv : Valid c) (hm : controlIndexMatches c u) : (u.map (·.key)).Nodup := by
  obtain ⟨d, hd, hk⟩ := hm
  rw [← hk]
  have hsub : (d.map (·.key)).Sublist (c.map (·.key)) := by
    unfold dropLastN at hd
    split at hd
    · cases hd
    · obtain ⟨rfl, _, _⟩ := build_ok_iff.1 hd
      exact List.filter_sublist.map _
  exact (Valid.keys_nodup hv).sublist hsub

/-- Rows of the dictionary data by position. -/
theorem dict_rowAt {m : Nat} {φ : List (List ℝ) → List ℝ} {X D : Takens.Frame ℝ} (hc : ∀ i, content D.rows i = causal m φ (content X.rows i)) (i q : Nat) (hm : 1 ≤ m)
    (hq : q + m ≤ (content X.rows i).length) :
    (series D.rows i)[q]? = some ⟨i, ((content X.rows i).map (·.1)).getD (q + m - 1) 0, φ ((((content X.rows i).map (·.2)).drop q).take m)⟩ := by
  have h1 : (content D.rows i)[q]? = some (((content X.rows i).map (·.1)).getD (q + m - 1) 0, φ ((((content X.rows i).map (·.2)).drop q).take m)) := by
    rw [hc]; exact causal_getElem? (by omega)
  unfold content at h1
  rw [List.getElem?_map] at h1
  cases hs : (series D.rows i)[q]? with
  | none => rw [hs] at h1; simp at h1
  | some r =>
    rw [hs] at h1
    have hri : r.id = i := (mem_series.1 (List.mem_of_getElem? hs)).2
    simp only [Option.map_some, Option.some.injEq, Prod.mk.injEq] at h1
    obtain ⟨id, t, v⟩ := r
    simp only at hri h1
    rw [hri, h1.1, h1.2]
    rfl

/-- The steps that `DMDControl` fits: dictionary values of successive windows, with the control input at the time of the first of them. -/
theorem dict_steps {d : Int} {m : Nat} (hm : 1 ≤ m) {φ : List (List ℝ) → List ℝ} {X D : Takens.Frame ℝ} (hD : Good d D) (hc : ∀ i, content D.rows i = causal m φ (content X.rows i))
    {U' : List (Row Int (Fin nu → ℝ))} (hU : controlIndexMatches (mapVal (toVec N) D.rows) U') (p : (Fin N ⊕ Fin nu → ℝ) × (Fin N → ℝ)) :
    p ∈ controlSteps (mapVal (toVec N) D.rows) U' ↔ ∃ i q, q + m < (content X.rows i).length ∧ ∃ r ∈ U', r.id = i ∧ r.time = ((content X.rows i).map (·.1)).getD (q + m - 1) 0 ∧
      p.1 = Sum.elim (toVec N (φ ((((content X.rows i).map (·.2)).drop q).take m))) r.val ∧ p.2 = toVec N (φ ((((content X.rows i).map (·.2)).drop (q + 1)).take m)) := by
  have hvD : Valid (mapVal (toVec N) D.rows) := mapVal_valid.2 hD.valid
  have hlen : ∀ i q, (series D.rows i)[q + 1]? ≠ none → q + m < (content X.rows i).length := by
    intro i q h
    rw [ne_eq, List.getElem?_eq_none_iff, not_le, ← content_length, hc, causal_length] at h
    omega
  unfold controlSteps
  rw [rowPairs_eq hvD]
  simp only [List.mem_filterMap, List.mem_flatMap, Option.map_eq_some_iff]
  constructor
  · rintro ⟨pr, ⟨i, -, hpr⟩, r, hr, rfl⟩
    obtain ⟨q, h1, h2⟩ := mem_consecutive_iff.1 hpr
    rw [mapVal_series] at h1 h2
    unfold mapVal at h1 h2
    rw [List.getElem?_map] at h1 h2
    have hq : q + m < (content X.rows i).length := hlen i q (by intro h; rw [h] at h2; simp at h2)
    rw [dict_rowAt hc i q hm (by omega)] at h1
    rw [dict_rowAt hc i (q + 1) hm (by omega)] at h2
    simp only [Option.map_some, Option.some.injEq] at h1 h2
    have hk := List.find?_some hr
    simp only [decide_eq_true_eq, ← h1, Row.key, Key.mk.injEq] at hk
    exact ⟨i, q, hq, r, List.mem_of_find?_eq_some hr, hk.1, hk.2, by rw [← h1], by rw [← h2]⟩
  · rintro ⟨i, q, hq, r, hr, hri, hrt, h1, h2⟩
    have e1 := dict_rowAt hc i q hm (by omega)
    have e2 := dict_rowAt hc i (q + 1) hm (by omega)
    refine ⟨(⟨i, ((content X.rows i).map (·.1)).getD (q + m - 1) 0, toVec N (φ ((((content X.rows i).map (·.2)).drop q).take m))⟩,
      ⟨i, ((content X.rows i).map (·.1)).getD (q + 1 + m - 1) 0, toVec N (φ ((((content X.rows i).map (·.2)).drop (q + 1)).take m))⟩), ⟨i, ?_, ?_⟩, r, ?_, ?_⟩
    · rw [mem_newIds]
      have := List.mem_of_getElem? e1
      exact List.mem_map.2 ⟨_, List.mem_map.2 ⟨_, (mem_series.1 this).1, rfl⟩, rfl⟩
    · rw [mem_consecutive_iff, mapVal_series]
      refine ⟨q, ?_, ?_⟩
      · unfold mapVal; rw [List.getElem?_map, e1]; rfl
      · unfold mapVal; rw [List.getElem?_map, e2]; rfl
    · exact find_of_mem (matches_nodup hvD hU) hr (by simp [Row.key, hri, hrt])
    · exact Prod.ext h1.symm h2.symm

theorem steered_succ (F : List (List ℝ) → (Fin nu → ℝ) → List ℝ) (u : Nat → Fin nu → ℝ) (k : Nat) :
    ∀ w, steered F w u (k + 1) = steered F (steer F w (u 0)) (fun j => u (j + 1)) k := by
  induction k with
  | zero => intro w; rfl
  | succ k ih => intro w; rw [steered, ih]; rfl

theorem closedControl_iterate {S : Set (List (List ℝ))} {F : List (List ℝ) → (Fin nu → ℝ) → List ℝ} {φ : List (List ℝ) → List ℝ} {A₀ : Matrix (Fin N) (Fin N) ℝ} {E₀ : Matrix (Fin N) (Fin nu) ℝ}
    {B₀ : Matrix (Fin N) (Fin n) ℝ} (h : ClosedControl S F φ A₀ E₀ B₀) (k : Nat) :
    ∀ w ∈ S, ∀ u, steered F w u k ∈ S ∧ driven A₀ E₀ (toVec N (φ w)) u k = toVec N (φ (steered F w u k)) := by
  induction k with
  | zero => intro w hw u; exact ⟨hw, by simp [driven, steered]⟩
  | succ k ih =>
    intro w hw u
    have h1 := ih (steer F w (u 0)) (h.stays w hw _) (fun j => u (j + 1))
    rw [steered_succ, driven_step, ← h.step w hw]
    exact h1

theorem window_steer {m : Nat} (hm : 1 ≤ m) {vals : List (List ℝ)} {q : Nat} (hq : q + m < vals.length) {F : List (List ℝ) → (Fin nu → ℝ) → List ℝ} {u : Fin nu → ℝ}
    (h : vals[q + m]? = some (F ((vals.drop q).take m) u)) : (vals.drop (q + 1)).take m = steer F ((vals.drop q).take m) u := by
  unfold steer
  apply List.ext_getElem?
  intro j
  by_cases hj : j < m
  · rw [List.getElem?_take_of_lt hj, List.getElem?_drop]
    by_cases hj2 : j + 1 < m
    · rw [List.getElem?_append_left (by simp; omega), List.getElem?_tail, List.getElem?_take_of_lt (by omega), List.getElem?_drop]
      congr 1; omega
    · rw [List.getElem?_append_right (by simp; omega)]
      have h0 : j - ((vals.drop q).take m).tail.length = 0 := by simp; omega
      rw [h0, show q + 1 + j = q + m by omega, h]
      rfl
  · rw [List.getElem?_eq_none (by simp; omega), List.getElem?_eq_none (by simp; omega)]

/-! ## Property theorems -/

/-- **C191 (recovery).** The dictionary has a memory of `m` samples, the data follow a controlled recurrence under which it is closed, and dictionary values and control inputs of the steps together span
the whole space. Then every fitted model has the exact system matrix, the exact control matrix and the exact inverse map. -/
theorem C191_recovery_partial {k : TimeKind} {d : Int} {m : Nat} (hm : 1 ≤ m) {φ : List (List ℝ) → List ℝ} {cols : List String} {T : Transformer ℝ} {X D : Takens.Frame ℝ} (hX : Good d X)
    (hl : MinLength (m + 1) X) (hT : Causal d m X.cols cols φ T) (hD : T X = .ok D) (hs : IdsAscending D.rows ∨ EqualLengths D.rows) {U : List (Row Int (Fin nu → ℝ))} (hU : Valid U)
    {S : Set (List (List ℝ))} {F : List (List ℝ) → (Fin nu → ℝ) → List ℝ} {A₀ : Matrix (Fin N) (Fin N) ℝ} {E₀ : Matrix (Fin N) (Fin nu) ℝ} {B₀ : Matrix (Fin N) (Fin n) ℝ}
    (hcl : ClosedControl S F φ A₀ E₀ B₀) (hF : ∀ i, FollowsControl m S F X U i)
    (hspan : Submodule.span ℝ {z : Fin N ⊕ Fin nu → ℝ | ∃ i q, q + m < (content X.rows i).length ∧ ∃ r ∈ U, r.id = i ∧ r.time = ((content X.rows i).map (·.1)).getD (q + m - 1) 0 ∧
      z = Sum.elim (toVec N (φ ((((content X.rows i).map (·.2)).drop q).take m))) r.val} = ⊤)
    {A : Matrix (Fin N) (Fin N) ℝ} {E : Matrix (Fin N) (Fin nu) ℝ} {B : Matrix (Fin N) (Fin n) ℝ} (h : FitsDictControl k m X D U A E B) : A = A₀ ∧ E = E₀ ∧ B = B₀ := by
  obtain ⟨D', hD', hDg, -, hDi, hc⟩ := hT X hX rfl (fun i hi => by have := hl i hi; omega)
  rw [hD] at hD'
  cases hD'
  have hsteps := dict_steps hm hDg hc h.1.2.1
  have hset : {x | ∃ p ∈ controlSteps (mapVal (toVec N) D.rows) (alignControl m D.rows U), p.1 = x} = {z : Fin N ⊕ Fin nu → ℝ | ∃ i q, q + m < (content X.rows i).length ∧
      ∃ r ∈ U, r.id = i ∧ r.time = ((content X.rows i).map (·.1)).getD (q + m - 1) 0 ∧ z = Sum.elim (toVec N (φ ((((content X.rows i).map (·.2)).drop q).take m))) r.val} := by
    ext z
    constructor
    · rintro ⟨p, hp, rfl⟩
      obtain ⟨i, q, hq, r, hr, hri, hrt, h1, -⟩ := (hsteps p).1 hp
      exact ⟨i, q, hq, r, mem_align hr, hri, hrt, h1⟩
    · rintro ⟨i, q, hq, r, hr, hri, hrt, rfl⟩
      have e1 := dict_rowAt hc i q hm (by omega)
      refine ⟨(_, _), (hsteps _).2 ⟨i, q, hq, r, align_mem hU hr (mem_series.1 (List.mem_of_getElem? e1)).1 (by simp [Row.key, hri, hrt]), hri, hrt, rfl, rfl⟩, rfl⟩
  have hAE : A = A₀ ∧ E = E₀ := by
    apply C31_recovery_partial (mapVal_ne_nil.2 hDg.ne) (mapVal_valid.2 hDg.valid)
      (by rcases hs with hs | hs
          · exact Or.inl (mapVal_idsAscending.2 hs)
          · exact Or.inr (mapVal_equalLengths.2 hs))
      (fun i hi => by
        have hiX := (hDi i).1 (mapVal_hasId.1 hi)
        have := hl i hiX
        rw [mapVal_series, mapVal_length, ← content_length, hc, causal_length, content_length]
        omega) h.1
    · intro p hp
      obtain ⟨i, q, hq, r, hr, hri, hrt, h1, h2⟩ := (hsteps p).1 hp
      have hstep := (hF i).2 q hq r (mem_align hr) hri hrt
      rw [h1, h2, window_steer hm (by simpa using hq) hstep, hcl.step _ ((hF i).1 q (by omega))]
      rfl
    · rw [hset]; exact hspan
  refine ⟨hAE.1, hAE.2, ?_⟩
  -- the inverse map
  have hrow : ∀ r ∈ D.rows, stateAt N D r.key = toVec N r.val ∧ toVec N r.val ᵥ* B₀ = stateAt n X r.key := by
    intro r hr
    obtain ⟨q, hq, h1, h2⟩ := dict_row (n := n) hm hX hc hr
    refine ⟨?_, ?_⟩
    · rw [stateAt, find_of_content hDg.valid (i := r.id) (t := r.time) (v := r.val) (List.mem_map.2 ⟨r, mem_series.2 ⟨hr, rfl⟩, rfl⟩) r.key rfl]
    · rw [h1, h2]
      exact hcl.decode _ ((hF _).1 q hq)
  have hkey : ∀ u ∈ alignControl m D.rows U, ∃ r ∈ D.rows, r.key = u.key := by
    intro u hu
    obtain ⟨e, he, hk⟩ := h.1.2.1
    have : u.key ∈ e.map (·.key) := by rw [hk]; exact List.mem_map.2 ⟨u, hu, rfl⟩
    obtain ⟨x, hx, hxk⟩ := List.mem_map.1 this
    have hxm : x ∈ mapVal (toVec N) D.rows := by
      rw [dropLast_rowPairs (mapVal_valid.2 hDg.valid) he] at hx
      obtain ⟨pr, hpr, rfl⟩ := List.mem_map.1 hx
      have := List.mem_of_mem_filter hpr
      obtain ⟨q, h1, -⟩ := mem_consecutive_iff.1 this
      exact List.mem_of_getElem? h1
    obtain ⟨r, hr, rfl⟩ := List.mem_map.1 hxm
    exact ⟨r, hr, hxk⟩
  have h0 : (Matrix.of (fun (r : Fin (alignControl m D.rows U).length) => stateAt N D (alignControl m D.rows U)[r].key)) * B₀ =
      Matrix.of (fun (r : Fin (alignControl m D.rows U).length) => stateAt n X (alignControl m D.rows U)[r].key) := by
    ext r j
    obtain ⟨x, hx, hxk⟩ := hkey _ (List.getElem_mem r.2)
    have := hrow x hx
    show (stateAt N D (alignControl m D.rows U)[r].key ᵥ* B₀) j = stateAt n X (alignControl m D.rows U)[r].key j
    have e : (alignControl m D.rows U)[r].key = x.key := hxk.symm
    rw [e, this.1, this.2]
  have h1 := h.2.solves h0
  have hlin : Bᵀ.mulVecLin = B₀ᵀ.mulVecLin := by
    have hs2 : Submodule.span ℝ {z : Fin N → ℝ | ∃ p ∈ controlSteps (mapVal (toVec N) D.rows) (alignControl m D.rows U), p.1 ∘ Sum.inl = z} = ⊤ := by
      have := congrArg (Submodule.map (LinearMap.funLeft ℝ ℝ (Sum.inl : Fin N → Fin N ⊕ Fin nu))) (hset ▸ hspan)
      rw [Submodule.map_span, Submodule.map_top, LinearMap.range_eq_top.2 (LinearMap.funLeft_surjective_of_injective ℝ ℝ _ Sum.inl_injective)] at this
      rw [← this]
      congr 1
      ext z
      constructor
      · rintro ⟨p, hp, rfl⟩
        exact ⟨_, ⟨p, hp, rfl⟩, rfl⟩
      · rintro ⟨_, ⟨p, hp, rfl⟩, rfl⟩
        exact ⟨p, hp, rfl⟩
    apply LinearMap.ext_on (s := {z : Fin N → ℝ | ∃ p ∈ controlSteps (mapVal (toVec N) D.rows) (alignControl m D.rows U), p.1 ∘ Sum.inl = z}) hs2
    rintro z ⟨p, hp, rfl⟩
    obtain ⟨i, q, hq, r, hr, hri, hrt, e1, -⟩ := (hsteps p).1 hp
    simp only [Matrix.mulVecLin_apply, Matrix.mulVec_transpose]
    rw [e1]
    show toVec N _ ᵥ* B = toVec N _ ᵥ* B₀
    have hx := (mem_series.1 (List.mem_of_getElem? (dict_rowAt hc i q hm (by omega)))).1
    have hx2 := hrow _ hx
    simp only at hx2
    rw [hx2.2, ← hx2.1]
    obtain ⟨a, ha, rfl⟩ := List.getElem_of_mem hr
    have e : (alignControl m D.rows U)[a].key = ⟨i, ((content X.rows i).map (·.1)).getD (q + m - 1) 0⟩ := by simp [Row.key, hri, hrt]
    have h2 : ∀ j, (stateAt N D (alignControl m D.rows U)[a].key ᵥ* B) j = stateAt n X (alignControl m D.rows U)[a].key j := fun j => congrFun (congrFun h1 ⟨a, ha⟩) j
    rw [e] at h2
    funext j
    exact h2 j
  have : Bᵀ = B₀ᵀ := by
    apply Matrix.mulVec_injective
    funext z
    exact LinearMap.congr_fun hlin z
  exact Matrix.transpose_injective this

/-- The rows of the initial conditions in the dictionary: one per window. -/
theorem dict_ic {d : Int} {m : Nat} (hm : 1 ≤ m) {φ : List (List ℝ) → List ℝ} {V E : Takens.Frame ℝ} (hV : Good d V) (hEi : ∀ i, HasId E.rows i ↔ HasId V.rows i)
    (hc : ∀ i, content E.rows i = causal m φ (content V.rows i)) (hVl : ∀ i, HasId V.rows i → (series V.rows i).length = m) :
    (E.rows.map (·.id)).Nodup ∧ ∀ r ∈ E.rows, HasId V.rows r.id ∧ some r.time = (timesOf V.rows r.id).getLast? ∧ r.val = φ ((content V.rows r.id).map (·.2)) := by
  have hlen : ∀ i, HasId V.rows i → (content V.rows i).length = m := fun i hi => by rw [content_length]; exact hVl i hi
  refine ⟨nodup_ids_of_single (fun i => ?_), ?_⟩
  · rw [← content_length, hc, causal_length]
    by_cases hi : HasId V.rows i
    · rw [hlen i hi]; omega
    · have : content V.rows i = [] := by
        by_contra h'
        exact hi (hasId_content.2 h')
      rw [this]; simp
  · intro r hr
    have hi : HasId V.rows r.id := (hEi r.id).1 ⟨r, hr, rfl⟩
    have hmem : (r.time, r.val) ∈ content E.rows r.id := List.mem_map.2 ⟨r, mem_series.2 ⟨hr, rfl⟩, rfl⟩
    rw [hc] at hmem
    obtain ⟨q, hq, he⟩ := List.mem_map.1 hmem
    have hq := List.mem_range.1 hq
    have hl := hlen _ hi
    have hq0 : q = 0 := by omega
    subst hq0
    simp only [Prod.mk.injEq] at he
    refine ⟨hi, ?_, ?_⟩
    · have : timesOf V.rows r.id = (content V.rows r.id).map (·.1) := by simp [timesOf, content]
      rw [this, List.getLast?_eq_getElem?, ← he.1, List.getD_eq_getElem?_getD, List.length_map, hl, Nat.zero_add, List.getElem?_eq_getElem (by simp; omega)]
      rfl
    · rw [← he.2, List.drop_zero, List.take_of_length_le (by simp [hl])]

/-- **C191 (prediction).** The fitted model predicts, from any initial windows in `S` and for any control input, exactly the samples of the controlled recurrence: every window is driven by the control
series with its own ID. -/
theorem C191_prediction_partial {k : TimeKind} {d : Int} {m : Nat} (hm : 1 ≤ m) {φ : List (List ℝ) → List ℝ} {cols : List String} {T : Transformer ℝ} {X D : Takens.Frame ℝ} (hX : Good d X)
    (hl : MinLength (m + 1) X) (hT : Causal d m X.cols cols φ T) (hD : T X = .ok D) (hs : IdsAscending D.rows ∨ EqualLengths D.rows) {U : List (Row Int (Fin nu → ℝ))} (hU : Valid U)
    {S : Set (List (List ℝ))} {F : List (List ℝ) → (Fin nu → ℝ) → List ℝ} {A₀ : Matrix (Fin N) (Fin N) ℝ} {E₀ : Matrix (Fin N) (Fin nu) ℝ} {B₀ : Matrix (Fin N) (Fin n) ℝ}
    (hcl : ClosedControl S F φ A₀ E₀ B₀) (hF : ∀ i, FollowsControl m S F X U i)
    (hspan : Submodule.span ℝ {z : Fin N ⊕ Fin nu → ℝ | ∃ i q, q + m < (content X.rows i).length ∧ ∃ r ∈ U, r.id = i ∧ r.time = ((content X.rows i).map (·.1)).getD (q + m - 1) 0 ∧
      z = Sum.elim (toVec N (φ ((((content X.rows i).map (·.2)).drop q).take m))) r.val} = ⊤)
    {A : Matrix (Fin N) (Fin N) ℝ} {E : Matrix (Fin N) (Fin nu) ℝ} {B : Matrix (Fin N) (Fin n) ℝ} (h : FitsDictControl k m X D U A E B)
    {V : Takens.Frame ℝ} (hV : Good d V) (hVc : V.cols = X.cols) (hVa : IdsAscending V.rows) (hVl : ∀ i, HasId V.rows i → (series V.rows i).length = m)
    (hVS : ∀ i, HasId V.rows i → (content V.rows i).map (·.2) ∈ S) (hord : ∀ Z, T V = .ok Z → IdsAscending Z.rows)
    {W : List (Row Int (Fin nu → ℝ))} (hW : Valid W) (hWa : IdsAscending W) (hids : ∀ i, HasId W i ↔ HasId V.rows i) (hsame : isSameTimeValues W = true)
    (t0 : Int) (hVt : ∀ i, HasId V.rows i → (timesOf V.rows i).getLast? = some t0) (hWt : (timeValues W).head? = some t0)
    (s : Nat) (hn : ∀ i, HasId W i → (vals W i).length = s) (s0 : Int) (ts : List Int) (hts : (s0 :: ts).Pairwise (· < ·)) (hlen : ts.length = s) :
    ∃ P, predictDictControl T A E B V W (s0 :: ts) = .ok P ∧ Valid P ∧ (∀ i, HasId P i ↔ HasId V.rows i) ∧
      ∀ i, HasId V.rows i → content P i =
        (s0 :: ts).zip ((List.range (s + 1)).map (fun j => toVec n ((steered F ((content V.rows i).map (·.2)) (fun q => (vals W i).getD q 0) j).getLastD []))) := by
  obtain ⟨rfl, rfl, rfl⟩ := C191_recovery_partial hm hX hl hT hD hs hU hcl hF hspan h
  obtain ⟨Z, hZ, hZg, -, hZi, hc⟩ := hT V hV hVc (fun i hi => (hVl i hi).ge)
  obtain ⟨hnd, hrows⟩ := dict_ic hm hV hZi hc hVl
  have hidsV : ids V.rows = ids W := by
    refine eq_of_pairwise_lt (ids_sorted _) (ids_sorted _) ?_
    intro i
    rw [mem_ids, mem_ids, hids]
  have hZids : Z.rows.map (·.id) = ids W := by
    rw [← hidsV]
    refine eq_of_pairwise_lt ?_ (ids_sorted _) ?_
    · exact ((hord Z hZ).and hnd).imp (fun {a b} hab => lt_of_le_of_ne hab.1 hab.2)
    · intro i
      rw [mem_ids, ← hZi]
      exact ⟨fun hi => by obtain ⟨r, hr, rfl⟩ := List.mem_map.1 hi; exact ⟨r, hr, rfl⟩, fun ⟨r, hr, hri⟩ => List.mem_map.2 ⟨r, hr, hri⟩⟩
  obtain ⟨P, hP, hvP, hPi, hcon⟩ := C28_controlled A E (mapVal (toVec N) Z.rows) W (mapVal_ne_nil.2 hZg.ne) (by rw [mapVal_ids]; exact hZids) hW hWa hsame t0
    (by
      intro r hr
      obtain ⟨r', hr', rfl⟩ := List.mem_map.1 hr
      obtain ⟨hi, ht, -⟩ := hrows r' hr'
      rw [hVt _ hi] at ht
      exact Option.some.inj ht) hWt s hn s0 ts hts hlen
  refine ⟨mapVal (fun z => z ᵥ* B) P, ?_, mapVal_valid.2 hvP, fun i => ?_, ?_⟩
  · have hval : validateControlWindow V.rows W = .ok () := by
      unfold validateControlWindow
      rw [newIds_eq_ids hVa, if_neg (by simp [hidsV]), if_neg (by simp [hsame]), if_neg]
      simp only [List.any_eq_true, not_exists, not_and, bne_iff_ne, ne_eq, not_not]
      intro i hi
      rw [hWt]
      exact hVt i (mem_ids.1 hi)
    simp only [predictDictControl, hval, hZ, hP]
  · rw [mapVal_hasId, hPi, mapVal_hasId, hZi]
  · intro i hi
    obtain ⟨r, hr, rfl⟩ := (hZi i).2 hi
    obtain ⟨-, -, hval⟩ := hrows r hr
    have := hcon ⟨r.id, r.time, toVec N r.val⟩ (List.mem_map.2 ⟨r, hr, rfl⟩)
    simp only at this
    have hpm : (fun p : Int × (Fin N → ℝ) => (p.1, p.2 ᵥ* B)) = Prod.map id (fun z => z ᵥ* B) := rfl
    rw [mapVal_content, this, hpm, ← List.zip_map_right, List.map_map]
    congr 1
    apply List.map_congr_left
    intro j _
    obtain ⟨h3, h4⟩ := closedControl_iterate hcl j _ (hVS _ hi) (fun q => (vals W r.id).getD q 0)
    simp only [Function.comp, hval, h4, hcl.decode _ h3]

/-! ## A model exists -/

/-- The aligned control input has the index that `DMDControl` asks for, whatever the order of the rows of `U`. -/
theorem align_matches {d : Int} {m : Nat} (hm : 2 ≤ m) {φ : List (List ℝ) → List ℝ} {X D : Takens.Frame ℝ} (hX : Good d X) (hl : MinLength (m + 1) X) (hD : Good d D)
    (hDi : ∀ i, HasId D.rows i ↔ HasId X.rows i) (hc : ∀ i, content D.rows i = causal m φ (content X.rows i)) {U : List (Row Int (Fin nu → ℝ))} (hU : Valid U) (hall : ControlsAll X U) :
    controlIndexMatches (mapVal (toVec N) D.rows) (alignControl m D.rows U) := by
  have h2 : ∀ i, HasId D.rows i → 2 ≤ (series D.rows i).length := by
    intro i hi
    have := hl i ((hDi i).1 hi)
    rw [← content_length, hc, causal_length, content_length]
    omega
  have hvD := mapVal_valid (f := toVec N).2 hD.valid
  obtain ⟨e, he, -⟩ := C07_drop_last (mapVal_ne_nil.2 hD.ne) hvD 1 (fun i hi => by rw [mapVal_series, mapVal_length]; have := h2 i (mapVal_hasId.1 hi); omega)
    (by
      obtain ⟨r, hr⟩ := List.exists_mem_of_ne_nil _ hD.ne
      exact ⟨r.id, by rw [mapVal_series, mapVal_length]; have := h2 r.id ⟨r, hr, rfl⟩; omega⟩)
  refine ⟨e, he, ?_⟩
  have hpairs := dropLast_rowPairs hvD he
  -- both are filters of the dictionary data
  have hfilt : e = (mapVal (toVec N) D.rows).filter (fun r => !(((groupTail 1 (mapVal (toVec N) D.rows)).map (·.key)).contains r.key)) := by
    unfold dropLastN at he
    split at he
    · cases he
    · obtain ⟨h, _, _⟩ := build_ok_iff.1 he
      exact h.symm
  have hal : (alignControl m D.rows U).map (·.key) = ((D.rows.filter (fun r => (U.find? (fun u => decide (u.key = r.key))).isSome)).map (·.key)) := by
    unfold alignControl
    rw [if_pos (by omega)]
    generalize D.rows = l
    induction l with
    | nil => rfl
    | cons r l ih =>
      rw [List.filterMap_cons, List.filter_cons]
      cases hf : U.find? (fun u => decide (u.key = r.key)) with
      | none => simpa using ih
      | some u =>
        have := List.find?_some hf
        simp only [decide_eq_true_eq] at this
        simp [ih, this]
  have hmap : (mapVal (toVec N) D.rows) = D.rows.map (fun r => (⟨r.id, r.time, toVec N r.val⟩ : Row Int (Fin N → ℝ))) := rfl
  have hek : e.map (·.key) = (D.rows.filter (fun r => !(((groupTail 1 (mapVal (toVec N) D.rows)).map (·.key)).contains r.key))).map (·.key) := by
    rw [hfilt]
    conv_lhs => rw [hmap, List.filter_map, List.map_map]
    rfl
  rw [hal, hek]
  congr 1
  apply List.filter_congr
  intro r hr
  rw [Bool.eq_iff_iff]
  have hleft : (!(((groupTail 1 (mapVal (toVec N) D.rows)).map (·.key)).contains r.key)) = true ↔ (⟨r.id, r.time, toVec N r.val⟩ : Row Int (Fin N → ℝ)) ∈ e := by
    rw [hfilt, List.mem_filter]
    exact ⟨fun h => ⟨List.mem_map.2 ⟨r, hr, rfl⟩, h⟩, fun h => h.2⟩
  rw [hleft, List.find?_isSome]
  have hright : (∃ u ∈ U, decide (u.key = r.key) = true) ↔ ∃ u ∈ U, u.key = r.key := by simp
  rw [hright, hall]
  have hsort := times_sorted hX.valid r.id
  have hXmem : ∀ j, j < (content X.rows r.id).length → ∃ x ∈ X.rows, x.id = r.id ∧ x.time = ((content X.rows r.id).map (·.1)).getD j 0 := by
    intro j hj
    obtain ⟨x, hx, hxe⟩ := List.mem_map.1 (List.getElem_mem hj)
    obtain ⟨hx1, hx2⟩ := mem_series.1 hx
    refine ⟨x, hx1, hx2, ?_⟩
    have : x.time = (content X.rows r.id)[j].1 := by rw [← hxe]
    rw [this]; simp [hj]
  obtain ⟨q, hqr⟩ := List.getElem?_of_mem (mem_series.2 ⟨hr, rfl⟩ : r ∈ series D.rows r.id)
  have hq : q + m ≤ (content X.rows r.id).length := by
    have : q < (series D.rows r.id).length := by
      by_contra hh
      rw [List.getElem?_eq_none (by omega)] at hqr
      simp at hqr
    rw [← content_length, hc, causal_length] at this
    omega
  have hrt : r.time = ((content X.rows r.id).map (·.1)).getD (q + m - 1) 0 := by
    rw [dict_rowAt hc r.id q (by omega) hq] at hqr
    have := Option.some.inj hqr
    rw [← this]
  rw [hpairs, rowPairs_eq hvD]
  have hmem : ((⟨r.id, r.time, toVec N r.val⟩ : Row Int (Fin N → ℝ)) ∈
      ((newIds ((mapVal (toVec N) D.rows).map (·.id))).flatMap (fun i => consecutive (series (mapVal (toVec N) D.rows) i))).map (·.1)) ↔ q + m < (content X.rows r.id).length := by
    constructor
    · intro h
      obtain ⟨pr, hpr, hp1⟩ := List.mem_map.1 h
      obtain ⟨i, -, hpr⟩ := List.mem_flatMap.1 hpr
      obtain ⟨a, h1, h2⟩ := mem_consecutive_iff.1 hpr
      rw [hp1] at h1
      have hi : r.id = i := (mem_series.1 (List.mem_of_getElem? h1)).2
      subst hi
      have ha : a + 1 < (series (mapVal (toVec N) D.rows) r.id).length := by
        by_contra hh
        rw [List.getElem?_eq_none (by omega)] at h2
        simp at h2
      rw [mapVal_series, mapVal_length, ← content_length, hc, causal_length] at ha
      -- the position is unique
      rw [mapVal_series] at h1
      unfold mapVal at h1
      rw [List.getElem?_map, dict_rowAt hc r.id a (by omega) (by omega)] at h1
      simp only [Option.map_some, Option.some.injEq, Row.mk.injEq] at h1
      have ht := h1.2.1
      rw [hrt] at ht
      by_contra hh
      have hqa : a + m - 1 < q + m - 1 := by omega
      have hlt := List.pairwise_iff_getElem.1 hsort (a + m - 1) (q + m - 1) (by simp; omega) (by simp; omega) hqa
      rw [List.getD_eq_getElem?_getD, List.getD_eq_getElem?_getD, List.getElem?_eq_getElem (by simp; omega), List.getElem?_eq_getElem (by simp; omega)] at ht
      simp only [Option.getD_some] at ht
      omega
    · intro h
      have e2 := dict_rowAt hc r.id (q + 1) (by omega) (by omega)
      refine List.mem_map.2 ⟨(⟨r.id, r.time, toVec N r.val⟩, ⟨r.id, ((content X.rows r.id).map (·.1)).getD (q + 1 + m - 1) 0,
        toVec N (φ ((((content X.rows r.id).map (·.2)).drop (q + 1)).take m))⟩), List.mem_flatMap.2 ⟨r.id, ?_, mem_consecutive_iff.2 ⟨q, ?_, ?_⟩⟩, rfl⟩
      · rw [mem_newIds, mapVal_ids]
        exact List.mem_map.2 ⟨r, hr, rfl⟩
      · rw [mapVal_series]
        unfold mapVal
        rw [List.getElem?_map, hqr]
        rfl
      · rw [mapVal_series]
        unfold mapVal
        rw [List.getElem?_map, e2]
        rfl
  rw [hmem]
  constructor
  · intro h
    obtain ⟨x, hx, hx1, hx2⟩ := hXmem (q + m - 1) (by omega)
    obtain ⟨y, hy, hy1, hy2⟩ := hXmem (q + m) h
    refine ⟨⟨x, hx, by simp [Row.key, hx1, hx2, hrt]⟩, y, hy, hy1, ?_⟩
    show r.time < y.time
    rw [hy2, hrt, List.getD_eq_getElem?_getD, List.getD_eq_getElem?_getD, List.getElem?_eq_getElem (by simp; omega), List.getElem?_eq_getElem (by simp; omega)]
    exact List.pairwise_iff_getElem.1 hsort (q + m - 1) (q + m) (by simp; omega) (by simp; omega) (by omega)
  · rintro ⟨-, y, hy, hy1, hy2⟩
    have hy1 : y.id = r.id := hy1
    have hy2 : r.time < y.time := hy2
    have : y.time ∈ (content X.rows r.id).map (·.1) := List.mem_map.2 ⟨(y.time, y.val), List.mem_map.2 ⟨y, mem_series.2 ⟨hy, hy1⟩, rfl⟩, rfl⟩
    obtain ⟨j, hj, hje⟩ := List.getElem_of_mem this
    by_contra hh
    have hjq : j ≤ q + m - 1 := by simp at hj; omega
    have hle : y.time ≤ r.time := by
      rw [← hje, hrt, List.getD_eq_getElem?_getD, List.getElem?_eq_getElem (by simp; omega)]
      rcases Nat.lt_or_eq_of_le hjq with h | h
      · exact (List.pairwise_iff_getElem.1 hsort j (q + m - 1) hj (by simp; omega) h).le
      · subst h; exact le_rfl
    omega

/-- **C191 (refusals).** A prediction is accepted only if the initial conditions and the control input have the same IDs, all control series have the same time values, and every window ends at the time of
the first control input. -/
theorem C191_rejects {T : Transformer ℝ} {A : Matrix (Fin N) (Fin N) ℝ} {E : Matrix (Fin N) (Fin nu) ℝ} {B : Matrix (Fin N) (Fin n) ℝ} {V : Takens.Frame ℝ} {W : List (Row Int (Fin nu → ℝ))}
    {times : List Int} {P : List (Row Int (Fin n → ℝ))} (h : predictDictControl T A E B V W times = .ok P) :
    (∀ i, HasId W i ↔ HasId V.rows i) ∧ isSameTimeValues W = true ∧ ∀ i, HasId V.rows i → (timesOf V.rows i).getLast? = (timeValues W).head? := by
  unfold predictDictControl at h
  split at h
  · simp at h
  · rename_i hv
    unfold validateControlWindow at hv
    split at hv
    · simp at hv
    · rename_i h1
      split at hv
      · simp at hv
      · rename_i h2
        split at hv
        · simp at hv
        · rename_i h3
          rw [not_not] at h1
          refine ⟨fun i => ?_, by simpa using h2, fun i hi => ?_⟩
          · rw [← mem_ids, ← h1, mem_newIds]
            simp [HasId]
          · simp only [List.any_eq_true, not_exists, not_and] at h3
            have := h3 i (by rw [mem_newIds]; simpa [HasId] using hi)
            rw [Bool.not_eq_true, bne_eq_false_iff_eq] at this
            exact this

/-- A fitted model exists if the index of the control input that is handed to the DMD model matches. -/
theorem fits_of_matches {d : Int} {m : Nat} (hm : 1 ≤ m) {φ : List (List ℝ) → List ℝ} {cols : List String} {T : Transformer ℝ} {X D : Takens.Frame ℝ} (hX : Good d X)
    (hl : MinLength (m + 1) X) (hT : Causal d m X.cols cols φ T) (hD : T X = .ok D) {U : List (Row Int (Fin nu → ℝ))}
    (hmatch : controlIndexMatches (mapVal (toVec N) D.rows) (alignControl m D.rows U)) :
    ∃ (A : Matrix (Fin N) (Fin N) ℝ) (E : Matrix (Fin N) (Fin nu) ℝ) (B : Matrix (Fin N) (Fin n) ℝ), FitsDictControl .int m X D U A E B := by
  obtain ⟨D', hD', hDg, -, hDi, hc⟩ := hT X hX rfl (fun i hi => by have := hl i hi; omega)
  rw [hD] at hD'
  cases hD'
  have h2 : MinLength 2 D := by
    intro i hi
    have := hl i ((hDi i).1 hi)
    rw [← content_length, hc, causal_length, content_length]
    omega
  set c := mapVal (toVec N) D.rows with hcdef
  have hcne : c ≠ [] := mapVal_ne_nil.2 hDg.ne
  have hmin : checkMinTimesteps c 2 = true := (checkMinTimesteps_iff hcne 2).2 (fun i hi => by
    rw [hcdef, mapVal_series, mapVal_length]; exact_mod_cast h2 i (mapVal_hasId.1 hi))
  have hlen : c.length ≠ 0 := by simpa using hcne
  set ps := (((shiftRows c).1.zip ((alignControl m D.rows U).map (·.val))).map (fun p => Sum.elim p.1 p.2)).zip (shiftRows c).2 with hps
  obtain ⟨Z, hZ⟩ := exists_normal (startM ps) (endM ps)
  have hcm : IsControlMatrices c.length ps (Matrix.of (fun i j => Z (Sum.inl j) i)) (Matrix.of (fun i j => Z (Sum.inr j) i)) := by
    refine ⟨Z, ?_, rfl, rfl⟩
    rw [Matrix.transpose_smul, Matrix.transpose_mul, Matrix.transpose_transpose, Matrix.transpose_smul, Matrix.transpose_mul, Matrix.transpose_transpose]
    exact (lstsq_normal (by simp [hlen])).2 ((isLstsqM_iff _ _ _).2 hZ)
  obtain ⟨B, hB⟩ := exists_normal (Matrix.of (fun (r : Fin (alignControl m D.rows U).length) => stateAt N D (alignControl m D.rows U)[r].key))
    (Matrix.of (fun (r : Fin (alignControl m D.rows U).length) => stateAt n X (alignControl m D.rows U)[r].key))
  have hsh : shiftMatrices c = .ok ((shiftRows c).1, (shiftRows c).2) := by simp [shiftMatrices, hmin]
  refine ⟨_, _, B, ⟨?_, hmatch, (shiftRows c).1, (shiftRows c).2, hsh, hcm⟩, (isLstsqM_iff _ _ _).2 hB⟩
  rw [mapVal_isConstDeltaTime]
  exact (isConstDelta_iff hDg.ne hDg.valid hDg.moderate).2 ⟨d, hDg.regular le_rfl h2⟩

/-- **C191 (existence).** The control input may have its rows in any order of the series and has to be given for all samples but the last of each series: the fit of a dictionary with memory aligns it
with the dictionary data, and a fitted model exists. -/
theorem C191_exists {d : Int} {m : Nat} (hm : 2 ≤ m) {φ : List (List ℝ) → List ℝ} {cols : List String} {T : Transformer ℝ} {X D : Takens.Frame ℝ} (hX : Good d X)
    (hl : MinLength (m + 1) X) (hT : Causal d m X.cols cols φ T) (hD : T X = .ok D) {U : List (Row Int (Fin nu → ℝ))} (hU : Valid U) (hall : ControlsAll X U) :
    ∃ (A : Matrix (Fin N) (Fin N) ℝ) (E : Matrix (Fin N) (Fin nu) ℝ) (B : Matrix (Fin N) (Fin n) ℝ), FitsDictControl .int m X D U A E B := by
  obtain ⟨D', hD', hDg, -, hDi, hc⟩ := hT X hX rfl (fun i hi => by have := hl i hi; omega)
  rw [hD] at hD'
  cases hD'
  exact fits_of_matches (by omega) hX hl hT hD (align_matches hm hX hl hDg hDi hc hU hall)

/-! ## Delay embeddings and linear recurrences with input -/

/-- The linear recurrence with input: the next sample is the sum over `a < m` of `C a` applied to the sample `a` steps before the last one, plus `G` applied to the control input. -/
noncomputable def inputRecurrence (m n : Nat) (C : Fin m → Matrix (Fin n) (Fin n) ℝ) (G : Matrix (Fin n) (Fin nu) ℝ) (w : List (List ℝ)) (u : Fin nu → ℝ) : List ℝ :=
  List.ofFn (fun j : Fin n => ∑ a : Fin m, (C a *ᵥ toVec n (w.getD (m - 1 - a) [])) j + (G *ᵥ u) j)

/-- The control input acts on the first block. -/
def inputBlock {m n : Nat} (G : Matrix (Fin n) (Fin nu) ℝ) : Matrix (Fin (m * n)) (Fin nu) ℝ :=
  Matrix.of (fun r s => let a := finProdFinEquiv.symm r; if a.1.val = 0 then G a.2 s else 0)

theorem takens_closed_control {δ n : Nat} (hδ : 1 ≤ δ) (C : Fin (δ + 1) → Matrix (Fin n) (Fin n) ℝ) (G : Matrix (Fin n) (Fin nu) ℝ) :
    ClosedControl (Windows (δ + 1) n) (inputRecurrence (δ + 1) n C G) (takensFormula ⟨0, δ, 1⟩ none) (companion C) (inputBlock G) (firstBlock (δ + 1) n) := by
  have hcl := takens_closed hδ C
  have hstay : ∀ w ∈ Windows (δ + 1) n, ∀ u, steer (inputRecurrence (δ + 1) n C G) w u ∈ Windows (δ + 1) n := by
    rintro w ⟨h1, h2⟩ u
    refine ⟨by simp [steer, h1], ?_⟩
    intro v hv
    rcases List.mem_append.1 hv with hv | hv
    · exact h2 v (List.mem_of_mem_tail hv)
    · rw [List.mem_singleton.1 hv]; simp [inputRecurrence]
  refine ⟨hstay, ?_, hcl.decode⟩
  intro w hw u
  rw [← hcl.step w hw]
  funext r
  obtain ⟨⟨a, j⟩, rfl⟩ := finProdFinEquiv.surjective r
  have e1 := advance_getD (F := fun w => inputRecurrence (δ + 1) n C G w u) (by omega) hw a a.2
  have e2 := advance_getD (F := linearRecurrence (δ + 1) n C) (by omega) hw a a.2
  rw [Nat.add_sub_cancel] at e1 e2
  rw [Pi.add_apply, toVec_takens hδ (hstay w hw u), toVec_takens hδ (hcl.stays w hw), e2]
  have e3 : (steer (inputRecurrence (δ + 1) n C G) w u).getD (δ - a) [] = (advance (fun w => inputRecurrence (δ + 1) n C G w u) w).getD (δ - a) [] := rfl
  rw [e3, e1]
  by_cases ha : a.val = 0
  · simp only [ha, if_true]
    have hE : ((inputBlock G : Matrix (Fin ((δ + 1) * n)) (Fin nu) ℝ) *ᵥ u) (finProdFinEquiv (a, j)) = (G *ᵥ u) j := by
      simp only [Matrix.mulVec, dotProduct, inputBlock, Matrix.of_apply, Equiv.symm_apply_apply, ha, if_true, if_false, zero_mul, Finset.sum_const_zero]
    rw [hE, toVec, toVec, inputRecurrence, linearRecurrence]
    simp [List.getD_eq_getElem?_getD]
  · simp only [ha, if_false]
    have hE : ((inputBlock G : Matrix (Fin ((δ + 1) * n)) (Fin nu) ℝ) *ᵥ u) (finProdFinEquiv (a, j)) = 0 := by
      simp only [Matrix.mulVec, dotProduct, inputBlock, Matrix.of_apply, Equiv.symm_apply_apply, ha, if_true, if_false, zero_mul, Finset.sum_const_zero]
    rw [hE, add_zero]

/-- Windows and control inputs of the steps together span the whole space. -/
def InputsSpan (m n : Nat) (X : Takens.Frame ℝ) (U : List (Row Int (Fin nu → ℝ))) : Prop :=
  Submodule.span ℝ {z : (Fin m × Fin n) ⊕ Fin nu → ℝ | ∃ i q, q + m < (content X.rows i).length ∧ ∃ r ∈ U, r.id = i ∧ r.time = ((content X.rows i).map (·.1)).getD (q + m - 1) 0 ∧
    z = Sum.elim (fun p => toVec n (((content X.rows i).map (·.2)).getD (q + (m - 1 - p.1)) []) p.2) r.val} = ⊤

theorem takens_span_control {δ n : Nat} (hδ : 1 ≤ δ) {d : Int} {X : Takens.Frame ℝ} (hX : Good d X) (hn : X.cols.length = n) {U : List (Row Int (Fin nu → ℝ))} (hspan : InputsSpan (δ + 1) n X U) :
    Submodule.span ℝ {z : Fin ((δ + 1) * n) ⊕ Fin nu → ℝ | ∃ i q, q + (δ + 1) < (content X.rows i).length ∧ ∃ r ∈ U, r.id = i ∧ r.time = ((content X.rows i).map (·.1)).getD (q + (δ + 1) - 1) 0 ∧
      z = Sum.elim (toVec ((δ + 1) * n) (takensFormula ⟨0, δ, 1⟩ none ((((content X.rows i).map (·.2)).drop q).take (δ + 1)))) r.val} = ⊤ := by
  set e : ((Fin (δ + 1) × Fin n) ⊕ Fin nu → ℝ) ≃ₗ[ℝ] (Fin ((δ + 1) * n) ⊕ Fin nu → ℝ) := LinearEquiv.funCongrLeft ℝ ℝ (Equiv.sumCongr finProdFinEquiv.symm (Equiv.refl _)) with he
  have h1 := congrArg (Submodule.map e.toLinearMap) hspan
  rw [Submodule.map_span, Submodule.map_top, LinearEquiv.range] at h1
  rw [← h1]
  congr 1
  have key : ∀ i q, q + (δ + 1) < (content X.rows i).length → ∀ u : Fin nu → ℝ, Sum.elim (toVec ((δ + 1) * n) (takensFormula ⟨0, δ, 1⟩ none ((((content X.rows i).map (·.2)).drop q).take (δ + 1)))) u =
      e (Sum.elim (fun p => toVec n (((content X.rows i).map (·.2)).getD (q + (δ + 1 - 1 - p.1)) []) p.2) u) := by
    intro i q hq u
    funext r
    rcases r with r | r
    · obtain ⟨⟨a, j⟩, rfl⟩ := finProdFinEquiv.surjective r
      simp only [Sum.elim_inl]
      rw [toVec_takens hδ (good_windows hX hn _ i q (by omega))]
      simp only [he, LinearEquiv.funCongrLeft_apply, LinearMap.funLeft_apply, Equiv.sumCongr_apply, Sum.map_inl, Equiv.symm_apply_apply, Sum.elim_inl]
      rw [List.getD_eq_getElem?_getD, List.getD_eq_getElem?_getD, List.getElem?_take_of_lt (by omega), List.getElem?_drop, Nat.add_sub_cancel]
    · simp [he, LinearMap.funLeft_apply]
  ext z
  simp only [Set.mem_setOf_eq, Set.mem_image]
  constructor
  · rintro ⟨i, q, hq, r, hr, hri, hrt, rfl⟩
    exact ⟨_, ⟨i, q, hq, r, hr, hri, hrt, rfl⟩, (key i q hq r.val).symm⟩
  · rintro ⟨_, ⟨i, q, hq, r, hr, hri, hrt, rfl⟩, rfl⟩
    exact ⟨i, q, hq, r, hr, hri, hrt, (key i q hq r.val).symm⟩

/-- **C191 (linear recurrences with input).** If the data follow a linear recurrence of order `δ + 1` with input and the dictionary is the delay embedding with `δ` delays, then every fitted model has the
companion matrix and the input matrix of the recurrence, and predicts it exactly for any control input, from any initial windows. The IDs of the training data may have any order. -/
theorem C191_takens {k : TimeKind} {d : Int} {δ n : Nat} (hδ : 1 ≤ δ) (C : Fin (δ + 1) → Matrix (Fin n) (Fin n) ℝ) (G : Matrix (Fin n) (Fin nu) ℝ) {includeId : Bool} {X D : Takens.Frame ℝ} {f : Fit ℝ}
    (hX : Good d X) (hn : X.cols.length = n) (hl : MinLength (δ + 2) X) (hfit : fitDict [takensStep ⟨0, δ, 1⟩ none] includeId none X = .ok (f, D)) {U : List (Row Int (Fin nu → ℝ))} (hU : Valid U)
    (hF : ∀ i q, q + (δ + 1) < (content X.rows i).length → ∀ r ∈ U, r.id = i → r.time = ((content X.rows i).map (·.1)).getD (q + δ) 0 →
      ((content X.rows i).map (·.2))[q + (δ + 1)]? = some (inputRecurrence (δ + 1) n C G ((((content X.rows i).map (·.2)).drop q).take (δ + 1)) r.val))
    (hspan : InputsSpan (δ + 1) n X U) {A : Matrix (Fin ((δ + 1) * n)) (Fin ((δ + 1) * n)) ℝ} {E : Matrix (Fin ((δ + 1) * n)) (Fin nu) ℝ} {B : Matrix (Fin ((δ + 1) * n)) (Fin n) ℝ}
    (h : FitsDictControl k (δ + 1) X D U A E B) :
    A = companion C ∧ E = inputBlock G ∧ B = firstBlock (δ + 1) n ∧
    ∀ {V : Takens.Frame ℝ}, Good d V → V.cols = X.cols → IdsAscending V.rows → (∀ i, HasId V.rows i → (series V.rows i).length = δ + 1) →
      ∀ {W : List (Row Int (Fin nu → ℝ))}, Valid W → IdsAscending W → (∀ i, HasId W i ↔ HasId V.rows i) → isSameTimeValues W = true →
      ∀ t0 : Int, (∀ i, HasId V.rows i → (timesOf V.rows i).getLast? = some t0) → (timeValues W).head? = some t0 →
      ∀ s : Nat, (∀ i, HasId W i → (vals W i).length = s) → ∀ (s0 : Int) (ts : List Int), (s0 :: ts).Pairwise (· < ·) → ts.length = s →
      ∃ P, predictDictControl (Dict.transform f includeId) A E B V W (s0 :: ts) = .ok P ∧ Valid P ∧ (∀ i, HasId P i ↔ HasId V.rows i) ∧
        ∀ i, HasId V.rows i → content P i = (s0 :: ts).zip ((List.range (s + 1)).map (fun j =>
          toVec n ((steered (inputRecurrence (δ + 1) n C G) ((content V.rows i).map (·.2)) (fun q => (vals W i).getD q 0) j).getLastD []))) := by
  have hlost : lost ⟨0, δ, 1⟩ = δ := by unfold lost largestDelay delay; simp; omega
  obtain ⟨cols, hc, hD, ha⟩ := takens_fit hX (by rw [hlost]; exact fun i hi => by have := hl i hi; omega) hfit
  rw [hlost] at hc
  have hcl := takens_closed_control hδ C G
  have hfo : ∀ i, FollowsControl (δ + 1) (Windows (δ + 1) n) (inputRecurrence (δ + 1) n C G) X U i :=
    fun i => ⟨fun q hq => good_windows hX hn _ i q (by simpa using hq), fun q hq r hr hri hrt => hF i q hq r hr hri hrt⟩
  have hsp := takens_span_control hδ hX hn hspan
  obtain ⟨hA, hE, hB⟩ := C191_recovery_partial (by omega) hX hl hc hD (Or.inl (ha _ _ hX hD)) hU hcl hfo hsp h
  refine ⟨hA, hE, hB, ?_⟩
  intro V hV hVc hVa hVl W hW hWa hids hsame t0 hVt hWt s hn' s0 ts hts hlen
  refine C191_prediction_partial (by omega) hX hl hc hD (Or.inl (ha _ _ hX hD)) hU hcl hfo hsp h hV hVc hVa hVl ?_ ?_ hW hWa hids hsame t0 hVt hWt s hn' s0 ts hts hlen
  · intro i hi
    have hlen : (content V.rows i).length = δ + 1 := by rw [content_length]; exact hVl i hi
    have := good_windows hV (by rw [hVc, hn]) (δ + 1) i 0 (by omega)
    rwa [List.drop_zero, List.take_of_length_le (by simp [hlen])] at this
  · intro Z hZ
    exact ha V Z hV hZ

/-! ## Example -/

/-- Two series of `x_{t+1} = x_t + x_{t-1} + u_t`; the IDs descend. -/
def exInX : Takens.Frame ℝ := ⟨["y"], [⟨3, 0, [1]⟩, ⟨3, 1, [1]⟩, ⟨3, 2, [2]⟩, ⟨3, 3, [4]⟩, ⟨3, 4, [6]⟩, ⟨1, 5, [0]⟩, ⟨1, 6, [1]⟩, ⟨1, 7, [3]⟩]⟩

/-- Their control input. -/
def exInU : List (Row Int (Fin 1 → ℝ)) := [⟨3, 0, ![7]⟩, ⟨3, 1, ![0]⟩, ⟨3, 2, ![1]⟩, ⟨3, 3, ![0]⟩, ⟨1, 5, ![9]⟩, ⟨1, 6, ![2]⟩]

theorem exInX_good : Good 1 exInX := by
  refine ⟨by simp [exInX], ?_, ?_, ?_, by norm_num⟩
  · exact (valid_iff _).2 ⟨by decide +kernel, by simp [Before, exInX]⟩
  · unfold Rect; decide +kernel
  · intro i
    by_cases h0 : i = 3
    · subst h0; decide +kernel
    by_cases h1 : i = 1
    · subst h1; decide +kernel
    · have : timesOf exInX.rows i = [] := by simp [timesOf, series, exInX, Ne.symm h0, Ne.symm h1]
      simp [this, consecutive]

theorem exIn_three : content exInX.rows 3 = [(0, [1]), (1, [1]), (2, [2]), (3, [4]), (4, [6])] := by simp [content, series, exInX]

theorem exIn_one : content exInX.rows 1 = [(5, [0]), (6, [1]), (7, [3])] := by simp [content, series, exInX]

theorem exIn_follows : ∀ i q, q + (1 + 1) < (content exInX.rows i).length → ∀ r ∈ exInU, r.id = i → r.time = ((content exInX.rows i).map (·.1)).getD (q + 1) 0 →
    ((content exInX.rows i).map (·.2))[q + (1 + 1)]? = some (inputRecurrence (1 + 1) 1 (fun _ => 1) 1 ((((content exInX.rows i).map (·.2)).drop q).take (1 + 1)) r.val) := by
  intro i q hq r hr hri hrt
  have hi : i = 3 ∨ i = 1 := by
    by_contra hh
    push Not at hh
    have : content exInX.rows i = [] := by simp [content, series, exInX, Ne.symm hh.1, Ne.symm hh.2]
    rw [this] at hq; simp at hq
  rcases hi with rfl | rfl
  · rw [exIn_three] at hq hrt ⊢
    simp only [List.length_cons, List.length_nil] at hq
    have hq' : q = 0 ∨ q = 1 ∨ q = 2 := by omega
    simp only [exInU, List.mem_cons, List.not_mem_nil, or_false] at hr
    rcases hq' with rfl | rfl | rfl <;> rcases hr with rfl | rfl | rfl | rfl | rfl | rfl <;> simp at hri hrt <;>
      simp [inputRecurrence, toVec, Fin.sum_univ_two] <;> norm_num
  · rw [exIn_one] at hq hrt ⊢
    simp only [List.length_cons, List.length_nil] at hq
    have hq' : q = 0 := by omega
    subst hq'
    simp only [exInU, List.mem_cons, List.not_mem_nil, or_false] at hr
    rcases hr with rfl | rfl | rfl | rfl | rfl | rfl <;> simp at hri hrt
    simp [inputRecurrence, toVec, Fin.sum_univ_two]
    norm_num

theorem exIn_span : InputsSpan (1 + 1) 1 exInX exInU := by
  unfold InputsSpan
  rw [eq_top_iff]
  intro z _
  set S := {z : (Fin (1 + 1) × Fin 1) ⊕ Fin 1 → ℝ | ∃ i q, q + (1 + 1) < (content exInX.rows i).length ∧ ∃ r ∈ exInU, r.id = i ∧ r.time = ((content exInX.rows i).map (·.1)).getD (q + (1 + 1) - 1) 0 ∧
    z = Sum.elim (fun p => toVec 1 (((content exInX.rows i).map (·.2)).getD (q + (1 + 1 - 1 - p.1)) []) p.2) r.val} with hS
  have m1 : (Sum.elim (fun p : Fin (1 + 1) × Fin 1 => if p.1 = 0 then (1 : ℝ) else 1) (fun _ : Fin 1 => (0 : ℝ))) ∈ Submodule.span ℝ S := by
    refine Submodule.subset_span ⟨3, 0, by rw [exIn_three]; decide, ⟨3, 1, ![0]⟩, by simp [exInU], rfl, by rw [exIn_three]; rfl, ?_⟩
    rw [exIn_three]
    funext p
    rcases p with ⟨a, j⟩ | j
    · fin_cases a <;> fin_cases j <;> simp [toVec]
    · fin_cases j; simp
  have m2 : (Sum.elim (fun p : Fin (1 + 1) × Fin 1 => if p.1 = 0 then (2 : ℝ) else 1) (fun _ : Fin 1 => (1 : ℝ))) ∈ Submodule.span ℝ S := by
    refine Submodule.subset_span ⟨3, 1, by rw [exIn_three]; decide, ⟨3, 2, ![1]⟩, by simp [exInU], rfl, by rw [exIn_three]; rfl, ?_⟩
    rw [exIn_three]
    funext p
    rcases p with ⟨a, j⟩ | j
    · fin_cases a <;> fin_cases j <;> simp [toVec]
    · fin_cases j; simp
  have m3 : (Sum.elim (fun p : Fin (1 + 1) × Fin 1 => if p.1 = 0 then (4 : ℝ) else 2) (fun _ : Fin 1 => (0 : ℝ))) ∈ Submodule.span ℝ S := by
    refine Submodule.subset_span ⟨3, 2, by rw [exIn_three]; decide, ⟨3, 3, ![0]⟩, by simp [exInU], rfl, by rw [exIn_three]; rfl, ?_⟩
    rw [exIn_three]
    funext p
    rcases p with ⟨a, j⟩ | j
    · fin_cases a <;> fin_cases j <;> simp [toVec]
    · fin_cases j; simp
  -- with a = z(0,0), b = z(1,0), c = z(u)
  have : z = (2 * z (Sum.inl (1, 0)) - z (Sum.inl (0, 0))) • (Sum.elim (fun p : Fin (1 + 1) × Fin 1 => if p.1 = 0 then (1 : ℝ) else 1) (fun _ : Fin 1 => (0 : ℝ))) +
      z (Sum.inr 0) • (Sum.elim (fun p : Fin (1 + 1) × Fin 1 => if p.1 = 0 then (2 : ℝ) else 1) (fun _ : Fin 1 => (1 : ℝ))) +
      ((z (Sum.inl (0, 0)) - z (Sum.inl (1, 0)) - z (Sum.inr 0)) / 2) • (Sum.elim (fun p : Fin (1 + 1) × Fin 1 => if p.1 = 0 then (4 : ℝ) else 2) (fun _ : Fin 1 => (0 : ℝ))) := by
    funext p
    rcases p with ⟨a, j⟩ | j
    · fin_cases a <;> fin_cases j <;> simp <;> ring
    · fin_cases j; simp
  rw [this]
  exact add_mem (add_mem (Submodule.smul_mem _ _ m1) (Submodule.smul_mem _ _ m2)) (Submodule.smul_mem _ _ m3)

/-- non-vacuity of `C191_takens`, `C191_recovery_partial`, `C191_prediction_partial` and `C191_exists`: a recurrence with input is found from two short series with descending IDs, and the model exists -/
example : Good 1 exInX ∧ exInX.cols.length = 1 ∧ MinLength 3 exInX ∧ Valid exInU ∧ ControlsAll exInX exInU ∧
    (∀ i q, q + (1 + 1) < (content exInX.rows i).length → ∀ r ∈ exInU, r.id = i → r.time = ((content exInX.rows i).map (·.1)).getD (q + 1) 0 →
      ((content exInX.rows i).map (·.2))[q + (1 + 1)]? = some (inputRecurrence (1 + 1) 1 (fun _ => 1) 1 ((((content exInX.rows i).map (·.2)).drop q).take (1 + 1)) r.val)) ∧
    InputsSpan (1 + 1) 1 exInX exInU ∧ ∃ f D, fitDict [takensStep ⟨0, (1 : Nat), 1⟩ none] false none exInX = .ok (f, D) ∧
      ∃ (A : Matrix (Fin (2 * 1)) (Fin (2 * 1)) ℝ) (E : Matrix (Fin (2 * 1)) (Fin 1) ℝ) (B : Matrix (Fin (2 * 1)) (Fin 1) ℝ), FitsDictControl .int 2 exInX D exInU A E B := by
  have hl : MinLength 3 exInX := by
    rintro i ⟨r, hr, rfl⟩
    simp only [exInX, List.mem_cons, List.not_mem_nil, or_false] at hr
    rcases hr with rfl | rfl | rfl | rfl | rfl | rfl | rfl | rfl <;> decide +kernel
  have hU : Valid exInU := (valid_iff _).2 ⟨by decide +kernel, by simp [Before, exInU]⟩
  have hall : ControlsAll exInX exInU := by
    rintro ⟨i, t⟩
    simp only [exInU, exInX, List.mem_cons, List.not_mem_nil, or_false, exists_eq_or_imp, exists_eq_left, Row.key, Key.mk.injEq]
    omega
  refine ⟨exInX_good, rfl, hl, hU, hall, exIn_follows, exIn_span, ?_⟩
  · obtain ⟨⟨f, D⟩, hf, -⟩ := ok_of_any (e := fitDict [takensStep ⟨0, (1 : Nat), 1⟩ none] false none exInX) (P := fun p => decide (p.1.nIc = 2)) (by decide +kernel)
    have hlost : lost ⟨0, (1 : Nat), 1⟩ = 1 := by unfold lost largestDelay delay; simp
    obtain ⟨cols, hc, hD, -⟩ := takens_fit exInX_good (by rw [hlost]; exact fun i hi => by have := hl i hi; omega) hf
    exact ⟨f, D, hf, C191_exists le_rfl exInX_good hl (by rw [hlost] at hc; exact hc) hD hU hall⟩

end Verif.Edmd
