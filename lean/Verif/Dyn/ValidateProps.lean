import Verif.Dyn.Validate
import Verif.Tsc.CheckProps
/-! # C159, C160: validation of data and parameters -/

namespace Verif.Dyn

open Verif.Tsc

variable {V : Type}

/-! ## Specification -/

/-- The requirements for an array with this shape and these entries. -/
structure ArrayMeets (fin : V → Bool) (o : ValidateOpts) (shape : List Nat) (flat : List V) : Prop where
  dims : o.ensure2d = true → 2 ≤ shape.length
  nd : o.allowNd = false → shape.length ≤ 2
  finite : o.allFinite = true → ∀ x ∈ flat, fin x = true
  samples : o.minSamples ≤ shape.headD 0
  features : shape.length = 2 → o.minFeatures ≤ shape.getD 1 0

/-- What the arguments of the validation ask for. -/
def Wanted (fin : V → Bool) (o : ValidateOpts) : Data V → Prop
  | .tsc cols rows => o.ensureNp = false ∧ o.otherTsc = false ∧
      Meets (fun v : List V => v.all fin) cols.length { o.tsc with allFinite := o.allFinite, minSamples := o.minSamples, minFeatures := o.minFeatures } rows
  | .frame levels index cols vals => levels = 1 ∧ o.ensureNp = false ∧ o.ensureTsc = false ∧ o.otherArray = false ∧ ArrayMeets fin o [index.length, cols.length] vals.flatten
  | .arr shape flat => o.ensureTsc = false ∧ o.otherArray = false ∧ ArrayMeets fin o shape flat
  | .sparse shape flat => o.ensureTsc = false ∧ o.otherArray = false ∧ o.acceptSparse = true ∧ ArrayMeets fin o shape flat

/-- The collections for which `C62_check_tsc_partial` describes the checks. -/
def Moderate (o : ValidateOpts) : Data V → Prop
  | .tsc _ rows => rows ≠ [] ∧ Valid rows ∧ ModerateSteps rows ∧ ∀ d, o.tsc.delta = some d → d.natAbs < 10 ^ 12 - 1
  | _ => True

/-! ## Lemmas -/

theorem checkArray_ok {fin : V → Bool} {o : ValidateOpts} {b : Bool} {shape : List Nat} {flat : List V} :
    checkArray fin o b shape flat = .ok () ↔ (b = true → o.acceptSparse = true) ∧ ArrayMeets fin o shape flat := by
  unfold checkArray
  by_cases h1 : (b && !o.acceptSparse) = true
  · rw [if_pos h1]
    simp only [Bool.and_eq_true, Bool.not_eq_true'] at h1
    simp [h1.1, h1.2]
  rw [if_neg h1]
  have h1' : b = true → o.acceptSparse = true := by
    intro hb; by_contra h; exact h1 (by simp [hb, h])
  rw [and_iff_right h1']
  by_cases h2 : (o.ensure2d && decide (shape.length < 2)) = true
  · rw [if_pos h2]
    simp only [Bool.and_eq_true, decide_eq_true_eq] at h2
    constructor
    · simp
    · intro h; have := h.dims h2.1; omega
  rw [if_neg h2]
  have h2' : o.ensure2d = true → 2 ≤ shape.length := by
    intro he; by_contra h; exact h2 (by simp [he]; omega)
  by_cases h3 : (!o.allowNd && decide (3 ≤ shape.length)) = true
  · rw [if_pos h3]
    simp only [Bool.and_eq_true, decide_eq_true_eq, Bool.not_eq_true'] at h3
    constructor
    · simp
    · intro h; have := h.nd h3.1; omega
  rw [if_neg h3]
  have h3' : o.allowNd = false → shape.length ≤ 2 := by
    intro he; by_contra h; exact h3 (by simp [he]; omega)
  by_cases h4 : (o.allFinite && !flat.all fin) = true
  · rw [if_pos h4]
    simp only [Bool.and_eq_true, Bool.not_eq_true', List.all_eq_false] at h4
    obtain ⟨ha, x, hx, hn⟩ := h4
    constructor
    · simp
    · intro h; exact absurd (h.finite ha x hx) hn
  rw [if_neg h4]
  have h4' : o.allFinite = true → ∀ x ∈ flat, fin x = true := by
    intro ha; by_contra h; apply h4; simp only [ha, Bool.true_and, Bool.not_eq_true', List.all_eq_false]; push Not at h; exact h
  constructor
  · intro h
    refine ⟨h2', h3', h4', ?_, ?_⟩
    · split at h
      · split at h
        · simp at h
        · rename_i hlt; simpa using hlt
      · split at h
        · simp at h
        · rename_i hlt; simpa using hlt
    · intro hl
      obtain ⟨a, c, rfl⟩ := List.length_eq_two.1 hl
      simp only at h
      split at h
      · simp at h
      · split at h
        · simp at h
        · rename_i hlt; simpa using hlt
  · rintro ⟨-, -, -, h5, h6⟩
    split
    · rw [if_neg (by simpa using h5)]
    · rw [if_neg (by simpa using h5)]
      split
      · rename_i m _
        rw [if_neg (by have := h6 rfl; simpa using this)]
      · rfl

/-! ## C159 -/

/-- **C159 (partial).** The validation returns, and returns the unchanged data, if and only if the data meet what is asked for. Missing: plain frames with `ensure_np` and collections with `ensure_min_features`
larger than one (`C159_numpy_violated`, `C159_features_violated`). -/
theorem C159_validate_partial {fin : V → Bool} {o : ValidateOpts} {X : Data V} (hm : Moderate o X)
    (hf : ∀ levels index cols vals, X = .frame levels index cols vals → o.ensureNp = false)
    (ht : ∀ cols rows, X = .tsc cols rows → o.minFeatures ≤ 1 ∧ cols ≠ []) (Y : Data V) : validate fin o X = .ok Y ↔ Y = X ∧ Wanted fin o X := by
  unfold validate
  by_cases hb : (o.ensureNp && o.ensureTsc) = true
  · rw [if_pos hb]
    simp only [Bool.and_eq_true] at hb
    cases X <;> simp [Wanted, hb.1, hb.2]
  rw [if_neg hb]
  have hb' : o.ensureNp = true → o.ensureTsc = false := by
    intro h; by_contra h'; exact hb (by simp [h, h'])
  cases X with
  | tsc cols rows =>
    obtain ⟨m1, m2, m3, m4⟩ := hm
    obtain ⟨t1, t2⟩ := ht cols rows rfl
    have hlen : (1 : Int) ≤ cols.length := by
      have := List.length_pos_iff.2 t2; omega
    simp only [Wanted]
    by_cases hn : o.ensureNp = true
    · simp [hn]
    have hn' : o.ensureNp = false := by simpa using hn
    rw [if_neg hn]
    have key := C62_check_tsc_partial m1 m2 m3 (fun v : List V => v.all fin) cols.length { o.tsc with allFinite := o.allFinite, minSamples := o.minSamples, minFeatures := 1 } m4
    have hmeets : Meets (fun v : List V => v.all fin) cols.length { o.tsc with allFinite := o.allFinite, minSamples := o.minSamples, minFeatures := 1 } rows ↔
        Meets (fun v : List V => v.all fin) cols.length { o.tsc with allFinite := o.allFinite, minSamples := o.minSamples, minFeatures := o.minFeatures } rows := by
      constructor
      · rintro ⟨a1, a2, -, a4, a5, a6, a7, a8, a9, a10, a11, a12, a13⟩
        exact ⟨a1, a2, by show o.minFeatures ≤ _; omega, a4, a5, a6, a7, a8, a9, a10, a11, a12, a13⟩
      · rintro ⟨a1, a2, -, a4, a5, a6, a7, a8, a9, a10, a11, a12, a13⟩
        exact ⟨a1, a2, hlen, a4, a5, a6, a7, a8, a9, a10, a11, a12, a13⟩
    rw [← hmeets]
    cases hc : checkTsc .int (fun v : List V => v.all fin) cols.length { o.tsc with allFinite := o.allFinite, minSamples := o.minSamples, minFeatures := 1 } rows with
    | error e =>
      have : ¬ Meets (fun v : List V => v.all fin) cols.length { o.tsc with allFinite := o.allFinite, minSamples := o.minSamples, minFeatures := 1 } rows := by
        intro h
        have := (key rows).2 ⟨rfl, h⟩
        rw [hc] at this
        simp at this
      simp [this]
    | ok rows' =>
      obtain ⟨rfl, hM⟩ := (key rows').1 hc
      by_cases ho : o.otherTsc = true
      · simp [ho]
      · simp [ho, hn', hM, eq_comm]
  | frame levels index cols vals =>
    have hn := hf _ _ _ _ rfl
    simp only [Wanted, hn]
    by_cases hl : levels = 1
    · rw [if_neg (by simpa using hl)]
      by_cases hts : o.ensureTsc = true
      · simp [hts]
      rw [if_neg hts]
      cases hc : checkArray fin o false [index.length, cols.length] vals.flatten with
      | error e =>
        have : ¬ ArrayMeets fin o [index.length, cols.length] vals.flatten := by
          intro h
          have := (checkArray_ok (b := false)).2 ⟨by simp, h⟩
          rw [hc] at this; simp at this
        simp [this]
      | ok u =>
        have := (checkArray_ok.1 hc).2
        by_cases ho : o.otherArray = true
        · simp [ho]
        · simp [ho, hl, this, hts, eq_comm]
    · rw [if_pos hl]
      simp [hl]
  | arr shape flat =>
    simp only [Wanted]
    by_cases hts : o.ensureTsc = true
    · simp [hts]
    rw [if_neg hts]
    cases hc : checkArray fin o false shape flat with
    | error e =>
      have : ¬ ArrayMeets fin o shape flat := by
        intro h
        have := (checkArray_ok (b := false)).2 ⟨by simp, h⟩
        rw [hc] at this; simp at this
      simp [this]
    | ok u =>
      have := (checkArray_ok.1 hc).2
      by_cases ho : o.otherArray = true
      · simp [ho]
      · simp [ho, this, hts, eq_comm]
  | sparse shape flat =>
    simp only [Wanted]
    by_cases hts : o.ensureTsc = true
    · simp [hts]
    rw [if_neg hts]
    cases hc : checkArray fin o true shape flat with
    | error e =>
      have : ¬ (o.acceptSparse = true ∧ ArrayMeets fin o shape flat) := by
        intro h
        have := (checkArray_ok (b := true)).2 ⟨fun _ => h.1, h.2⟩
        rw [hc] at this; simp at this
      simp only [reduceCtorEq, false_iff]
      rintro ⟨-, -, -, h⟩
      exact this h
    | ok u =>
      have := checkArray_ok.1 hc
      by_cases ho : o.otherArray = true
      · simp [ho]
      · simp [ho, this.1 rfl, this.2, hts, eq_comm]

/-- **C159 is violated for frames:** a plain frame is accepted although a numpy array is required. -/
theorem C159_numpy_violated : ∃ (o : ValidateOpts) (X : Data Int), o.ensureNp = true ∧ (∃ l i c v, X = .frame l i c v) ∧ validate (fun _ => true) o X = .ok X ∧ ¬ Wanted (fun _ => true) o X := by
  refine ⟨{ ensureNp := true }, .frame 1 [0] ["x"] [[1]], rfl, ⟨_, _, _, _, rfl⟩, by decide, ?_⟩
  simp [Wanted]

/-- **C159 is violated for collections:** the required number of features is not checked; `LocalRegressionSelection.fit` (dmap.py 1563) asks for two features and accepts a collection with one. -/
theorem C159_features_violated (n : Int) (hn : 1 < n) : ∃ (o : ValidateOpts) (X : Data Int), o.minFeatures = n ∧ validate (fun _ => true) o X = .ok X ∧ ¬ Wanted (fun _ => true) o X := by
  refine ⟨{ minFeatures := n, tsc := { constDelta := false, noDegenerate := false } }, .tsc ["x"] [⟨0, 0, [1]⟩], rfl, ?_, ?_⟩
  · have h : validate (fun _ => true) { minFeatures := n, tsc := { constDelta := false, noDegenerate := false } } (.tsc ["x"] [⟨0, 0, [1]⟩] : Data Int) =
        validate (fun _ => true) { minFeatures := 1, tsc := { constDelta := false, noDegenerate := false } } (.tsc ["x"] [⟨0, 0, [1]⟩] : Data Int) := rfl
    rw [h]
    decide +kernel
  · rintro ⟨-, -, h⟩
    have := h.features
    simp at this
    omega

/-- The values of the data, one list per sample. -/
def rowsOf : Data V → List (List V)
  | .tsc _ rows => rows.map (·.val)
  | .frame _ _ _ vals => vals
  | _ => []

/-- **C159 (results).** What a transformer returns for a collection is a collection with the same index and the computed values and names, for a frame a frame with the same index; values whose shape does
not fit raise. -/
theorem C159_result {X : Data V} {vals : List (List V)} {names : List String} {Y : Data V} (h : sameType X vals names = .ok Y) :
    match X with
    | .tsc _ rows => ∃ rows', Y = .tsc names rows' ∧ rows'.map (·.key) = rows.map (·.key) ∧ rowsOf Y = vals ∧ (Valid rows → Valid rows')
    | .frame l index _ _ => Y = .frame l index names vals
    | _ => ∃ shape, Y = .arr shape vals.flatten := by
  cases X with
  | tsc cols rows =>
    simp only [sameType] at h
    split at h
    · simp at h
    rename_i hn
    push Not at hn
    simp only [Except.ok.injEq] at h
    subst h
    have hk : (List.zipWith (fun (r : Row Int (List V)) v => { r with val := v }) rows vals).map (·.key) = rows.map (·.key) := by
      apply List.ext_getElem
      · simp [hn.1]
      · intro i h1 h2; simp [Row.key]
    refine ⟨_, rfl, hk, ?_, ?_⟩
    · apply List.ext_getElem
      · simp [rowsOf, hn.1]
      · intro i h1 h2; simp [rowsOf]
    · intro hv
      rw [valid_iff] at hv ⊢
      have hid : (List.zipWith (fun (r : Row Int (List V)) v => { r with val := v }) rows vals).map (·.id) = rows.map (·.id) := by
        simpa [Row.key, Function.comp_def] using congrArg (List.map Key.id) hk
      refine ⟨by rw [hid]; exact hv.1, ?_⟩
      rw [List.pairwise_iff_getElem] at hv ⊢
      intro i j h1 h2 hij
      have := hv.2 i j (by simpa [hn.1] using h1) (by simpa [hn.1] using h2) hij
      simpa [Before] using this
  | frame l index cols vs =>
    simp only [sameType] at h
    split at h
    · simp at h
    · simp only [Except.ok.injEq] at h; exact h.symm
  | arr shape flat =>
    simp only [sameType, Except.ok.injEq] at h
    exact ⟨_, h.symm⟩
  | sparse shape flat =>
    simp only [sameType, Except.ok.injEq] at h
    exact ⟨_, h.symm⟩

/-! ## C160 -/

theorem lookup_filter {β : Type} (params : List (String × β)) {a b : String} (h : b ≠ a) : (params.filter (fun p => p.1 != a)).lookup b = params.lookup b := by
  induction params with
  | nil => rfl
  | cons p ps ih =>
    obtain ⟨k, v⟩ := p
    by_cases hp : k = a
    · have h2 : (b == k) = false := by simp [hp, h]
      subst hp
      simp only [List.filter_cons, bne_self_eq_false, Bool.false_eq_true, if_false, ih, List.lookup, h2]
    · have h1 : (k != a) = true := by simp [hp]
      simp only [List.filter_cons, h1, if_true, List.lookup, ih]

/-- **C160.** Parameters of `fit` are read by name: known names get the given value or else the default, in the order of the signature, and a name that the method does not know raises. -/
theorem C160_fit_params {β : Type} (attrs params : List (String × β)) (hn : (attrs.map (·.1)).Nodup) (vs : List β) :
    readFitParams attrs params = some vs ↔ (∀ p ∈ params, p.1 ∈ attrs.map (·.1)) ∧ vs = attrs.map (fun a => (params.lookup a.1).getD a.2) := by
  induction attrs generalizing params vs with
  | nil =>
    cases params with
    | nil => simp [readFitParams, eq_comm]
    | cons p ps => simp only [readFitParams, List.isEmpty_cons]; simp; intro h; exact absurd rfl (h p.1 p.2 |>.1)
  | cons a as ih =>
    have hn' := List.nodup_cons.1 (by simpa using hn : (a.1 :: as.map (·.1)).Nodup)
    simp only [readFitParams]
    have hmap : as.map (fun b => ((params.filter (fun p => p.1 != a.1)).lookup b.1).getD b.2) = as.map (fun b => (params.lookup b.1).getD b.2) := by
      apply List.map_congr_left
      intro b hb
      rw [lookup_filter]
      intro he
      exact hn'.1 (by rw [← he]; exact List.mem_map_of_mem hb)
    have hmem : (∀ p ∈ params.filter (fun p => p.1 != a.1), p.1 ∈ as.map (·.1)) ↔ ∀ p ∈ params, p.1 ∈ (a :: as).map (·.1) := by
      constructor
      · intro h p hp
        by_cases he : p.1 = a.1
        · rw [he]; simp
        · have := h p (List.mem_filter.2 ⟨hp, by simp [he]⟩)
          simp only [List.map_cons, List.mem_cons]; right; exact this
      · intro h p hp
        obtain ⟨h1, h2⟩ := List.mem_filter.1 hp
        have := h p h1
        simp only [List.map_cons, List.mem_cons] at this
        rcases this with h' | h'
        · simp [h'] at h2
        · exact h'
    cases hr : readFitParams as (params.filter (fun p => p.1 != a.1)) with
    | none =>
      simp only [reduceCtorEq, false_iff]
      rintro ⟨h, -⟩
      have := (ih (params.filter (fun p => p.1 != a.1)) hn'.2 _).2 ⟨hmem.2 h, rfl⟩
      rw [hr] at this
      simp at this
    | some ws =>
      obtain ⟨h1, h2⟩ := (ih _ hn'.2 ws).1 hr
      rw [hmap] at h2
      simp only [Option.some.injEq, List.map_cons, ← h2]
      exact ⟨fun h => ⟨hmem.1 h1, h.symm⟩, fun h => h.2.symm⟩

/-! ## Examples -/

example : validate (fun x : Int => decide (x ≠ 99)) { minSamples := 2, ensureTsc := true } (.tsc ["x"] [⟨0, 0, [1]⟩, ⟨0, 1, [2]⟩] : Data Int) = .ok (.tsc ["x"] [⟨0, 0, [1]⟩, ⟨0, 1, [2]⟩]) := by
  decide +kernel
example : validate (fun x : Int => decide (x ≠ 99)) {} (.arr [1, 2] [1, 99] : Data Int) = .error .finite := by decide
example : validate (fun x : Int => decide (x ≠ 99)) {} (.arr [2] [1, 2] : Data Int) = .error .ndim := by decide
example : validate (fun x : Int => decide (x ≠ 99)) { otherArray := true } (.arr [1, 2] [1, 2] : Data Int) = .error .keys := by decide
example : sameType (.tsc ["x"] [⟨0, 0, [1]⟩, ⟨0, 1, [2]⟩] : Data Int) [[3, 4], [5, 6]] ["a", "b"] = .ok (.tsc ["a", "b"] [⟨0, 0, [3, 4]⟩, ⟨0, 1, [5, 6]⟩]) := by decide
example : readFitParams [("store", 0), ("size", 5)] [("size", 7)] = some [0, 7] := by decide
example : readFitParams [("store", 0), ("size", 5)] [("sise", 7)] = none := by decide

end Verif.Dyn
