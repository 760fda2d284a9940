import Verif.Edmd.Predict
import Verif.Utils.GeneralProps
/-! # Properties C34, C36, C83: names of features in `EDMD` -/

namespace Verif.Edmd

open Verif.Tsc Verif.Np Verif.Dyn Verif.Lin Verif.Utils Matrix

/-- The frame restricted to the columns `names`, in this order. -/
def restrict (names : List String) (F : Frame) : Frame := (names, mapVal (selectCols F.1 names) F.2)

theorem getD_lt {α : Type} (l : List α) (d : α) {i : Nat} (h : i < l.length) : l.getD i d = l[i] := by
  simp [List.getD_eq_getElem?_getD, List.getElem?_eq_getElem h]

variable {δ ρ : Type} [Fintype ρ]

theorem qoisValid_some {pred q : List String} : qoisValid pred (some q) = true ↔ ∀ n ∈ q, n ∈ pred := by
  simp [qoisValid]

/-! ## C34 -/

/-- **C34 (matrix mode and controlled systems).** Without Koopman modes `predict(X, qois=names)` is `predict(X)` restricted to the columns `names`, in any order. -/
theorem C34_matrix_mode [Fintype δ] [DecidableEq δ] (pred : List String) (B : δ → Nat → ℝ) (K : Matrix δ δ ℝ) (dt : Int) (X : List (Row Int (δ → ℝ)))
    (times : List Int) (q : List String) (hq : ∀ n ∈ q, n ∈ pred) :
    predictViaMatrix pred B K dt X times (some q) = (predictViaMatrix pred B K dt X times none).map (restrict q) := by
  unfold predictViaMatrix
  rw [if_pos (qoisValid_some.2 hq), if_pos (by rfl)]
  cases predictMatrix K dt X times with
  | error e => rfl
  | ok d => rfl

/-- **C34 (matrix mode, values).** The value in the column `name` is the coordinate of the feature `name` of the predicted dictionary state mapped back with `B`. -/
theorem C34_matrix_values [Fintype δ] [DecidableEq δ] (pred : List String) (B : δ → Nat → ℝ) (K : Matrix δ δ ℝ) (dt : Int) (X : List (Row Int (δ → ℝ)))
    (times : List Int) (q : List String) (hq : ∀ n ∈ q, n ∈ pred) (d : List (Row Int (δ → ℝ))) (hd : predictMatrix K dt X times = .ok d) :
    predictViaMatrix pred B K dt X times (some q) = .ok (q, mapVal (fun z => q.map (fun n => ∑ i, z i * B i (pred.idxOf n))) d) := by
  unfold predictViaMatrix
  rw [if_pos (qoisValid_some.2 hq), hd]
  simp only [mapVal, List.map_map, Function.comp_def, selectCols]
  congr 2
  refine List.map_congr_left fun r _ => ?_
  congr 1
  refine List.map_congr_left fun n hn => ?_
  have hl : pred.idxOf n < pred.length := List.idxOf_lt_length_of_mem (hq n hn)
  rw [List.getD_eq_getElem?_getD, List.getElem?_map, List.getElem?_range hl]
  rfl

theorem rowMul_pick {pred q : List String} (hp : pred.Nodup) {P : Nat → Nat → ℂ} (h : projectionMatrix pred q = some P) (x : Nat → ℂ)
    (k : Nat) (hk : k < q.length) (hk' : k < (pred.filter (fun n => decide (n ∈ q))).length) :
    rowMul pred.length x P k = x (pred.idxOf (pred.filter (fun n => decide (n ∈ q)))[k]) := by
  have h2 := (C22_projection_partial pred q hp h x).2
  have h3 := congrArg (fun l => l[k]?) h2
  simp only [List.getElem?_map, List.getElem?_range hk, Option.map_some, List.getElem?_eq_getElem hk', Option.some.injEq] at h3
  exact h3

theorem projection_some {α : Type} [Zero α] [One α] {pred q : List String} (hp : pred.Nodup) (hq : q.Nodup) (hsub : ∀ n ∈ q, n ∈ pred) :
    ∃ P : Nat → Nat → α, projectionMatrix pred q = some P := by
  have hperm : (pred.filter (fun n => decide (n ∈ q))).Perm q := by
    rw [List.perm_ext_iff_of_nodup (hp.filter _) hq]
    intro a
    simp only [List.mem_filter, decide_eq_true_eq]
    exact ⟨fun h => h.2, fun h => ⟨hsub a h, h⟩⟩
  have hl : (projectIndices pred q).length = q.length := by
    have := congrArg List.length (projectIndices_names pred q)
    rw [List.length_map, hperm.length_eq] at this; exact this
  exact ⟨(fun i k => if (projectIndices pred q)[k]? = some i then 1 else 0), by simp [projectionMatrix, hl]⟩

/-- **C34 (spectral mode, what is returned).** With Koopman modes the values returned for distinct valid `names` are those of the selected features *in the order of
the model's features*, under the column labels `names`. -/
theorem C34_spectral_values (pred : List String) (hp : pred.Nodup) (modes : Nat → ρ → ℂ) (ev : ρ → ℂ) (state : (δ → ℝ) → ρ → ℂ) (dt : Int)
    (X : List (Row Int (δ → ℝ))) (times : List Int) (q : List String) (hq : q.Nodup) (hsub : ∀ n ∈ q, n ∈ pred) :
    predictSpectral pred modes ev state dt X times (some q) =
      (predictSpectral pred modes ev state dt X times none).map (fun F => (q, (restrict (pred.filter (fun n => decide (n ∈ q))) F).2)) := by
  obtain ⟨P, hP⟩ := projection_some (α := ℂ) hp hq hsub
  unfold predictSpectral
  simp only
  rw [if_pos (qoisValid_some.2 hsub), if_pos (by rfl), hP]
  simp only
  set flt := pred.filter (fun n => decide (n ∈ q)) with hflt
  have hl : flt.length = q.length := by rw [hflt]; exact (C22_projection_partial pred q hp hP (fun _ => 0)).1
  have key : evolveFrame X times (fun ics norm => ics.map (fun x => norm.map (fun t =>
      (List.range q.length).map (fun k => (∑ p, rowMul pred.length (fun i => modes i p) P k * (ev p ^ stepCount dt t * state x p)).re)))) =
      (evolveFrame X times (fun ics norm => ics.map (fun x => norm.map (fun t =>
      (List.range pred.length).map (fun k => (∑ p, modes k p * (ev p ^ stepCount dt t * state x p)).re))))).map (mapVal (selectCols pred flt)) := by
    rw [← evolveFrame_map]
    congr 1
    funext ics norm
    rw [List.map_map]
    apply List.map_congr_left
    intro x _
    simp only [Function.comp, List.map_map]
    apply List.map_congr_left
    intro t _
    simp only [Function.comp, selectCols]
    apply List.ext_getElem
    · simp [hl]
    · intro k h1 h2
      have hk : k < q.length := by simpa using h1
      have hk' : k < flt.length := by omega
      have hmem : flt[k] ∈ pred := List.mem_of_mem_filter (List.getElem_mem hk')
      have hlt := List.idxOf_lt_length_of_mem hmem
      simp only [List.getElem_map, List.getElem_range]
      rw [getD_lt _ _ (by simpa using hlt)]
      simp only [List.getElem_map, List.getElem_range]
      congr 1
      apply Finset.sum_congr rfl
      intro p _
      rw [rowMul_pick hp hP (fun i => modes i p) k hk (by rw [← hflt]; exact hk')]
  rw [key]
  cases evolveFrame X times _ with
  | error e => rfl
  | ok d => rfl

theorem filter_eq_of_sublist {pred q : List String} (hp : pred.Nodup) (hs : q.Sublist pred) : pred.filter (fun n => decide (n ∈ q)) = q := by
  have h1 : (pred.filter (fun n => decide (n ∈ q))).Perm q := by
    rw [List.perm_ext_iff_of_nodup (hp.filter _) (hp.sublist hs)]
    intro a
    simp only [List.mem_filter, decide_eq_true_eq]
    exact ⟨fun h => h.2, fun h => ⟨hs.subset h, h⟩⟩
  have h2 : q.Sublist (pred.filter (fun n => decide (n ∈ q))) := by
    have := hs.filter (fun n => decide (n ∈ q))
    rwa [List.filter_eq_self.2 (by simp)] at this
  exact (h2.eq_of_length h1.length_eq.symm).symm

/-- **C34 (spectral mode, true part).** If `names` are in the order of the model's features, `predict(X, qois=names)` is `predict(X)` restricted to the columns `names`.
Missing: other orders, see `C34_spectral_iff`. -/
theorem C34_spectral_partial (pred : List String) (hp : pred.Nodup) (modes : Nat → ρ → ℂ) (ev : ρ → ℂ) (state : (δ → ℝ) → ρ → ℂ) (dt : Int)
    (X : List (Row Int (δ → ℝ))) (times : List Int) (q : List String) (hs : q.Sublist pred) :
    predictSpectral pred modes ev state dt X times (some q) = (predictSpectral pred modes ev state dt X times none).map (restrict q) := by
  rw [C34_spectral_values pred hp modes ev state dt X times q (hp.sublist hs) (fun n hn => hs.subset hn), filter_eq_of_sublist hp hs]
  cases predictSpectral pred modes ev state dt X times none with
  | error e => rfl
  | ok F => rfl

/-- **C34 fails** in spectral mode for every selection that is not in the order of the model's features: some model returns wrong columns. -/
theorem C34_spectral_iff (pred : List String) (hp : pred.Nodup) (q : List String) (hq : q.Nodup) (hsub : ∀ n ∈ q, n ∈ pred) :
    (∀ (modes : Nat → Fin 1 → ℂ) (ev : Fin 1 → ℂ) (state : (Fin 1 → ℝ) → Fin 1 → ℂ) (dt : Int) (X : List (Row Int (Fin 1 → ℝ))) (times : List Int),
      predictSpectral pred modes ev state dt X times (some q) = (predictSpectral pred modes ev state dt X times none).map (restrict q)) ↔
    q.Sublist pred := by
  constructor
  · intro h
    have h := h (fun k _ => (k : ℂ)) (fun _ => 1) (fun _ _ => 1) 1 [⟨0, 0, fun _ => 0⟩] [0]
    rw [C34_spectral_values pred hp _ _ _ _ _ _ q hq hsub] at h
    set flt := pred.filter (fun n => decide (n ∈ q)) with hflt
    obtain ⟨d, hd, -, -, -, hc⟩ := evolveFrame_ok [(⟨0, 0, fun _ => 0⟩ : Row Int (Fin 1 → ℝ))] 0 [] (fun ics norm => ics.map (fun _ => norm.map (fun t =>
      (List.range pred.length).map (fun (k : Nat) => (∑ p : Fin 1, (k : ℂ) * ((1 : ℂ) ^ stepCount 1 t * 1)).re)))) (by simp) (by simp) (by simp) (by simp) (by simp)
    have hn : predictSpectral pred (fun k (_ : Fin 1) => (k : ℂ)) (fun _ => 1) (fun (_ : Fin 1 → ℝ) _ => 1) 1 [⟨0, 0, fun _ => 0⟩] [0] none = .ok (pred, d) := by
      unfold predictSpectral
      simp only
      rw [if_pos (by rfl), hd]
    rw [hn] at h
    simp only [Except.map, Except.ok.injEq, restrict, Prod.mk.injEq, true_and] at h
    have hcont := congrArg (fun c => content c 0) h
    have hc0 := hc 0 (by simp)
    simp only [List.getElem_cons_zero, List.map_cons, List.map_nil, List.zip_cons_cons, List.zip_nil_left] at hc0
    simp only [mapVal_content, hc0, List.map_cons, List.map_nil, List.cons.injEq, and_true, Prod.mk.injEq, true_and, selectCols] at hcont
    have hval : ∀ n ∈ pred, ((List.range pred.length).map (fun (k : Nat) => (∑ p : Fin 1, (k : ℂ) * ((1 : ℂ) ^ stepCount 1 (0 - 0) * 1)).re)).getD (pred.idxOf n) 0 = (pred.idxOf n : ℝ) := by
      intro n hn
      rw [getD_lt _ _ (by simpa using List.idxOf_lt_length_of_mem hn)]
      simp
    have hfl : flt.map (fun n => (pred.idxOf n : ℝ)) = q.map (fun n => (pred.idxOf n : ℝ)) := by
      rw [List.map_congr_left (fun n hn => (hval n (List.mem_of_mem_filter hn)).symm), hcont]
      exact List.map_congr_left (fun n hn => hval n (hsub n hn))
    have heq : flt = q := by
      apply List.ext_getElem (by simpa using congrArg List.length hfl)
      intro i h1 h2
      have h3 := congrArg (fun l => l[i]?) hfl
      simp only [List.getElem?_map, List.getElem?_eq_getElem h1, List.getElem?_eq_getElem h2, Option.map_some, Option.some.injEq] at h3
      have h4 : pred.idxOf flt[i] = pred.idxOf q[i] := by exact_mod_cast h3
      exact (List.idxOf_inj (List.mem_of_mem_filter (List.getElem_mem h1))).1 h4
    rw [← heq]
    exact List.filter_sublist
  · intro hs modes ev state dt X times
    exact C34_spectral_partial pred hp modes ev state dt X times q hs

/-- **C34 fails**: two features, selected in the other order. -/
theorem C34_violated : ∃ (modes : Nat → Fin 1 → ℂ) (ev : Fin 1 → ℂ) (state : (Fin 1 → ℝ) → Fin 1 → ℂ) (dt : Int) (X : List (Row Int (Fin 1 → ℝ))) (times : List Int),
    predictSpectral ["a", "b"] modes ev state dt X times (some ["b", "a"]) ≠
      (predictSpectral ["a", "b"] modes ev state dt X times none).map (restrict ["b", "a"]) := by
  have h := (C34_spectral_iff ["a", "b"] (by decide) ["b", "a"] (by decide) (by decide)).not.2 (by decide)
  push Not at h
  exact h

example : (["a", "c"] : List String).Sublist ["a", "b", "c"] ∧ (["a", "b", "c"] : List String).Nodup := by decide

/-- **C34 (rejection).** A name that is not a feature, or (with Koopman modes) a repeated name, raises. -/
theorem C34_rejects (pred : List String) (hp : pred.Nodup) (modes : Nat → ρ → ℂ) (ev : ρ → ℂ) (state : (δ → ℝ) → ρ → ℂ) (dt : Int)
    (X : List (Row Int (δ → ℝ))) (times : List Int) (q : List String) :
    ((∃ n ∈ q, n ∉ pred) → predictSpectral pred modes ev state dt X times (some q) = .error .qois) ∧
    ((∀ n ∈ q, n ∈ pred) → ¬ q.Nodup → predictSpectral pred modes ev state dt X times (some q) = .error .projection) := by
  constructor
  · rintro ⟨n, hn, hnp⟩
    unfold predictSpectral
    simp only
    rw [if_neg (fun h => hnp (qoisValid_some.1 h n hn))]
  · intro h1 h2
    unfold predictSpectral
    simp only
    rw [if_pos (qoisValid_some.2 h1), C22_rejects pred q hp (Or.inl h2)]

/-! ## C36 -/

/-- The documented rule: the original states are available because the dictionary holds them or because they are attached on request. -/
def DocumentedAccept (includeId : Bool) (feat dict : List String) : Prop := includeId = true ∨ ∀ n ∈ feat, n ∈ dict

/-- **C36 (what `partial_fit` does).** For datafold dictionaries it accepts exactly: `include_id_state=True` and either `use_transform_inverse=True` or a dictionary that
already holds the original states.  The states are never attached. -/
theorem C36_accepts_iff (includeId useInverse : Bool) (feat dict : List String) (hf : feat.Nodup) (hd : dict.Nodup) :
    (∃ r, partialFitPlan includeId useInverse true feat dict = .ok r) ↔ includeId = true ∧ (useInverse = true ∨ ∀ n ∈ feat, n ∈ dict) := by
  unfold partialFitPlan
  simp only [Bool.not_true, Bool.and_false, Bool.false_eq_true, if_false, Bool.not_false, Bool.and_true]
  cases includeId with
  | false => simp
  | true =>
    simp only [Bool.not_true, Bool.false_eq_true, if_false, true_and]
    cases useInverse with
    | true => simp
    | false =>
      simp only [Bool.false_eq_true, if_false, false_or]
      constructor
      · rintro ⟨r, hr⟩ n hn
        by_contra hnd
        rw [C22_rejects (α := ℝ) dict feat hd (Or.inr ⟨n, hn, hnd⟩)] at hr
        cases hr
      · intro h
        obtain ⟨P, hP⟩ := projection_some (α := ℝ) hd hf h
        exact ⟨(dict, true), by rw [hP]⟩

/-- **C36 (true part).** `include_id_state=False` with a dictionary that lacks an original state is rejected, and `include_id_state=True` with a dictionary that holds them
is accepted, as documented.  Missing: the two other cases, see `C36_violated`. -/
theorem C36_partial (useInverse : Bool) (feat dict : List String) (hf : feat.Nodup) (hd : dict.Nodup) :
    ((∃ n ∈ feat, n ∉ dict) → partialFitPlan false useInverse true feat dict = .error .notImplemented) ∧
    ((∀ n ∈ feat, n ∈ dict) → ∃ b, partialFitPlan true useInverse true feat dict = .ok (dict, b)) := by
  constructor
  · intro _; simp [partialFitPlan]
  · intro h
    obtain ⟨r, hr⟩ := (C36_accepts_iff true useInverse feat dict hf hd).2 ⟨rfl, Or.inr h⟩
    refine ⟨r.2, ?_⟩
    rw [hr]
    unfold partialFitPlan at hr
    simp only [Bool.not_true, Bool.and_false, Bool.false_eq_true, if_false, Bool.not_false, Bool.and_true] at hr
    repeat' split at hr
    all_goals first | (cases hr; rfl) | cases hr

/-- **C36 fails** for every dictionary: one that preserves the states is rejected with `include_id_state=False`, and one that lacks a state is rejected with
`include_id_state=True` (instead of attaching the states). -/
theorem C36_violated (feat dict : List String) (hd : dict.Nodup) :
    ((∀ n ∈ feat, n ∈ dict) → DocumentedAccept false feat dict ∧ ∀ b, partialFitPlan false b true feat dict = .error .notImplemented) ∧
    ((∃ n ∈ feat, n ∉ dict) → DocumentedAccept true feat dict ∧ partialFitPlan true false true feat dict = .error .projection) := by
  refine ⟨fun h => ⟨Or.inr h, fun b => by simp [partialFitPlan]⟩, fun h => ⟨Or.inl rfl, ?_⟩⟩
  obtain ⟨n, hn, hnd⟩ := h
  simp [partialFitPlan, C22_rejects (α := ℝ) dict feat hd (Or.inr ⟨n, hn, hnd⟩)]

example : (∀ n ∈ ["x"], n ∈ ["x", "x^2"]) ∧ (["x", "x^2"] : List String).Nodup ∧ (∃ n ∈ ["x"], n ∉ ["x^2", "x^3"]) ∧ (["x^2", "x^3"] : List String).Nodup := by decide

/-! ## C83 -/

/-- Multiply a dictionary row with the inverse map: the features of the original state. -/
def decode (m : Nat) (nfeat : Nat) (B : Nat → Nat → ℝ) (z : List ℝ) : List ℝ := (List.range nfeat).map (rowMul m (fun i => z.getD i 0) B)

/-- **C83 (attached states).** If `fit` attaches the original states to the dictionary, the inverse map returns exactly the original state from every dictionary row,
whatever the dictionary computes. -/
theorem C83_attached (feat dict : List String) (hf : feat.Nodup) (hd : dict.Nodup) (hdis : ∀ n ∈ feat, n ∉ dict) (hne : feat ≠ [])
    (Xd X : List (List ℝ)) (B : Nat → Nat → ℝ) (hB : IsInverseMap true feat dict Xd X B) (x g : List ℝ) (hx : x.length = feat.length) :
    decode (feat ++ dict).length feat.length B (attachedValues true feat dict x g) = x := by
  have hnp : feat.all (fun n => decide (n ∈ dict)) = false := by
    rw [Bool.eq_false_iff]
    intro h
    obtain ⟨n, hn⟩ := List.exists_mem_of_ne_nil _ hne
    exact hdis n hn (by simpa using List.all_eq_true.1 h n hn)
  have hany : feat.any (fun n => decide (n ∈ dict)) = false := by
    rw [List.any_eq_false]; intro n hn; simpa using hdis n hn
  simp only [IsInverseMap, Bool.true_or, if_true, attachedColumns, hnp, hany, Bool.not_false, Bool.and_self, Bool.false_eq_true, if_false, Except.ok.injEq, exists_eq_left'] at hB
  have hnd : (feat ++ dict).Nodup := List.nodup_append.2 ⟨hf, hd, fun a ha b hb hab => hdis a ha (hab ▸ hb)⟩
  obtain ⟨P, hP, hval⟩ := C22_in_order (feat ++ dict) feat hnd (List.sublist_append_left _ _) (fun i => (attachedValues true feat dict x g).getD i 0)
  rw [hB] at hP; cases hP
  unfold decode
  rw [hval]
  simp only [attachedValues, hnp, Bool.not_false, Bool.and_self, if_true]
  apply List.ext_getElem
  · simp [hx]
  · intro k h1 h2
    have hk : k < feat.length := by simpa using h1
    simp only [List.getElem_map, featureValue]
    have : (feat ++ dict).idxOf feat[k] = k := by
      rw [List.idxOf_append_of_mem (List.getElem_mem hk), hf.idxOf_getElem]
    rw [this, getD_lt _ _ (by simp; omega), List.getElem_append_left (by omega)]

/-- **C83 (states inside the dictionary).** If the dictionary holds the original states in the order of the input features, the inverse map selects exactly these
columns. -/
theorem C83_preserved_partial (includeId : Bool) (feat dict : List String) (hd : dict.Nodup) (hs : feat.Sublist dict)
    (Xd X : List (List ℝ)) (B : Nat → Nat → ℝ) (hB : IsInverseMap includeId feat dict Xd X B) (z : List ℝ) :
    decode dict.length feat.length B z = selectCols dict feat z := by
  have hall : feat.all (fun n => decide (n ∈ dict)) = true := by
    rw [List.all_eq_true]; intro n hn; simpa using hs.subset hn
  simp only [IsInverseMap, hall, Bool.or_true, if_true, attachedColumns, Bool.not_true, Bool.and_false, Bool.false_eq_true, if_false, Except.ok.injEq, exists_eq_left'] at hB
  obtain ⟨P, hP, hval⟩ := C22_in_order dict feat hd hs (fun i => z.getD i 0)
  rw [hB] at hP; cases hP
  unfold decode
  rw [hval]; rfl

/-- **C83 fails** for a dictionary that holds the states in another order: the decoded columns are exchanged. -/
theorem C83_violated : ∃ (feat dict : List String) (B : Nat → Nat → ℝ) (z : List ℝ), feat.Nodup ∧ dict.Nodup ∧ (∀ n ∈ feat, n ∈ dict) ∧
    IsInverseMap false feat dict [] [] B ∧ decode dict.length feat.length B z ≠ selectCols dict feat z := by
  have hidx : projectIndices ["y", "x"] ["x", "y"] = [0, 1] := by decide
  have hP : projectionMatrix (α := ℝ) ["y", "x"] ["x", "y"] = some (fun i k => if [0, 1][k]? = some i then 1 else 0) := by
    simp [projectionMatrix, hidx]
  refine ⟨["x", "y"], ["y", "x"], (fun i k => if [0, 1][k]? = some i then 1 else 0), [1, 2], by decide, by decide, by decide, ?_, ?_⟩
  · have hall : (["x", "y"] : List String).all (fun n => decide (n ∈ ["y", "x"])) = true := by decide
    simp only [IsInverseMap, hall, Bool.or_true, if_true, attachedColumns, Bool.not_true, Bool.and_false, Bool.false_eq_true, if_false, Except.ok.injEq, exists_eq_left']
    exact hP
  · intro h
    have h0 := congrArg (fun l => l[0]?) h
    have hi : (["y", "x"] : List String).idxOf "x" = 1 := by decide
    simp [decode, selectCols, rowMul, hi] at h0

example : (["x", "y"] : List String).Sublist ["x", "y", "x^2"] ∧ (∀ n ∈ ["x", "y"], n ∉ ["x^2", "x y"]) := by decide

end Verif.Edmd
