import Verif.Transform.Columns
import Verif.Transform.TakensProps
import Verif.Tsc.CollLemmas
/-! # Properties C20 and C65-C69: column-wise transformers -/

namespace Verif.Transform

open Verif.Tsc Verif.Np Verif.Takens

variable {α : Type}

theorem flatMap_map_getElem? {β γ : Type} (l : List β) (cs : List γ) (g : β → γ → α) (i j : Nat) (hi : i < l.length) (hj : j < cs.length) :
    (l.flatMap (fun b => cs.map (g b)))[i * cs.length + j]? = some (g l[i] cs[j]) := by
  induction l generalizing i with
  | nil => simp at hi
  | cons b l ih =>
    rw [List.flatMap_cons]
    cases i with
    | zero => rw [List.getElem?_append_left (by simp; omega)]; simp [hj]
    | succ i =>
      rw [List.getElem?_append_right (by simp [Nat.succ_mul]; omega)]
      have e : (i + 1) * cs.length + j - (cs.map (g b)).length = i * cs.length + j := by rw [List.length_map, Nat.succ_mul]; omega
      rw [e, ih i (by simpa using hi)]; rfl

theorem applyLambdas_ok [Inhabited α] {ls : List (List α → List α)} {X Y : Frame α} (h : applyLambdas ls X = .ok Y) :
    (lambdaCols X.cols ls.length).Nodup ∧ Y.cols = lambdaCols X.cols ls.length ∧
    Y.rows = X.rows.zipIdx.map (fun p => { p.1 with val :=
      (ls.flatMap (fun l => X.cols.map (fun c => l (column X c)))).map (fun col => col.getD p.2 default) }) := by
  unfold applyLambdas at h
  simp only at h
  split at h
  · simp at h
  · rename_i hn
    simp only [Except.ok.injEq] at h
    subst h
    exact ⟨not_not.1 hn, rfl, rfl⟩

/-- **C20.** The column labelled `{feature}_lambda{i}` in the output contains lambda `i` applied to the column `feature`; the index is unchanged and there are no
other columns. -/
theorem C20_apply_lambdas [Inhabited α] {ls : List (List α → List α)} {X Y : Frame α} (hls : ∀ l ∈ ls, ∀ x, (l x).length = x.length)
    (h : applyLambdas ls X = .ok Y) :
    (∀ i (hi : i < ls.length), ∀ c ∈ X.cols, lambdaName c i ∈ Y.cols ∧ column Y (lambdaName c i) = ls[i] (column X c)) ∧
    (∀ n ∈ Y.cols, ∃ c ∈ X.cols, ∃ i, i < ls.length ∧ n = lambdaName c i) ∧
    Y.rows.map (·.key) = X.rows.map (·.key) := by
  obtain ⟨hn, hc, hr⟩ := applyLambdas_ok h
  refine ⟨?_, ?_, ?_⟩
  · intro i hi c hcm
    obtain ⟨j, hj, rfl⟩ := List.mem_iff_getElem.1 hcm
    have hpos : Y.cols[i * X.cols.length + j]? = some (lambdaName X.cols[j] i) := by
      rw [hc]; unfold lambdaCols
      have := flatMap_map_getElem? (List.range ls.length) X.cols (fun i c => lambdaName c i) i j (by simpa using hi) hj
      simpa using this
    obtain ⟨hlt, hget⟩ := List.getElem?_eq_some_iff.1 hpos
    have hidx : Y.cols.idxOf (lambdaName X.cols[j] i) = i * X.cols.length + j := by
      rw [← hget]; rw [← hc] at hn
      exact hn.idxOf_getElem (i * X.cols.length + j) hlt
    refine ⟨by rw [← hget]; exact List.getElem_mem _, ?_⟩
    have hcol := flatMap_map_getElem? ls X.cols (fun l c => l (column X c)) i j hi hj
    have hlen : (ls[i] (column X X.cols[j])).length = X.rows.length := by
      rw [hls _ (List.getElem_mem _)]; simp [column]
    rw [column, hidx, hr]
    apply List.ext_getElem
    · rw [hlen]; simp
    · intro q h1 h2
      simp only [List.map_map, List.getElem_map, Function.comp, List.getElem_zipIdx, Nat.zero_add]
      rw [List.getD_eq_getElem?_getD, List.getElem?_map, hcol]
      simp only [Option.map_some, Option.getD_some]
      rw [List.getD_eq_getElem?_getD, List.getElem?_eq_getElem h2]; rfl
  · intro n hnm
    rw [hc] at hnm
    unfold lambdaCols at hnm
    obtain ⟨i, hi, hm⟩ := List.mem_flatMap.1 hnm
    obtain ⟨c, hcm, rfl⟩ := List.mem_map.1 hm
    exact ⟨c, hcm, i, List.mem_range.1 hi, rfl⟩
  · rw [hr]
    apply List.ext_getElem
    · simp
    · intro q h1 h2; simp [Row.key]

/-- Two features, two lambdas. -/
def exLambda : Frame Int := ⟨["a", "b"], [⟨0, 0, [1, 10]⟩, ⟨0, 1, [2, 20]⟩]⟩

example : applyLambdas [List.map (· + 1), List.map (· * 2)] exLambda =
    .ok ⟨["a_lambda0", "b_lambda0", "a_lambda1", "b_lambda1"], [⟨0, 0, [2, 11, 2, 20]⟩, ⟨0, 1, [3, 21, 4, 40]⟩]⟩ := by decide +kernel

/-- **C65 fails for `TSCApplyLambdas`:** `get_feature_names_out()` lists the labels in another order than the columns of the output. -/
theorem C65_lambdas_violated : ∃ (ls : List (List Int → List Int)) (X Y : Frame Int), applyLambdas ls X = .ok Y ∧
    Y.cols ≠ lambdaNamesOut X.cols ls.length :=
  ⟨[List.map (· + 1), List.map (· * 2)], exLambda, ⟨["a_lambda0", "b_lambda0", "a_lambda1", "b_lambda1"], [⟨0, 0, [2, 11, 2, 20]⟩, ⟨0, 1, [3, 21, 4, 40]⟩]⟩,
    by decide +kernel, by decide +kernel⟩

theorem flatMap_swap_perm {β γ : Type} (l : List β) (cs : List γ) (g : β → γ → α) :
    (l.flatMap (fun b => cs.map (g b))).Perm (cs.flatMap (fun c => l.map (fun b => g b c))) := by
  induction l with
  | nil => simp
  | cons b l ih =>
    rw [List.flatMap_cons]
    refine (List.Perm.append_left _ ih).trans ?_
    clear ih
    induction cs with
    | nil => simp
    | cons c cs ih =>
      simp only [List.map_cons, List.flatMap_cons, List.cons_append]
      refine List.Perm.cons _ ?_
      refine List.Perm.trans ?_ (List.Perm.append_left _ ih)
      rw [← List.append_assoc, ← List.append_assoc]
      exact List.Perm.append_right _ List.perm_append_comm

/-- **C65 for `TSCApplyLambdas` (partial).** The names are the same labels in a possibly different order; the order agrees with a single lambda or a single feature. -/
theorem C65_lambdas_partial [Inhabited α] {ls : List (List α → List α)} {X Y : Frame α} (h : applyLambdas ls X = .ok Y) :
    Y.cols.Perm (lambdaNamesOut X.cols ls.length) ∧
    (ls.length = 1 ∨ X.cols.length = 1 → Y.cols = lambdaNamesOut X.cols ls.length) := by
  obtain ⟨-, hc, -⟩ := applyLambdas_ok h
  rw [hc]
  refine ⟨flatMap_swap_perm _ _ _, ?_⟩
  rintro (h1 | h1)
  · rw [h1]
    simp only [lambdaCols, lambdaNamesOut, List.range_one, List.flatMap_cons, List.flatMap_nil, List.append_nil, List.map_cons, List.map_nil]
    induction X.cols with
    | nil => rfl
    | cons c cs ih => simp [List.flatMap_cons, ih]
  · obtain ⟨c, hcs⟩ := List.length_eq_one_iff.1 h1
    rw [hcs]
    simp only [lambdaCols, lambdaNamesOut, List.flatMap_cons, List.flatMap_nil, List.append_nil, List.map_cons, List.map_nil]
    generalize List.range ls.length = l
    induction l with
    | nil => rfl
    | cons c cs ih => simp [List.flatMap_cons, ih]

/-- **C65 fails for `TSCFiniteDifference`** for every non-empty input and every derivative order. -/
theorem C65_finite_difference_violated (cols : List String) (hc : cols ≠ []) (d : Nat) : finiteDifferenceCols cols d ≠ finiteDifferenceNames cols := by
  cases cols with
  | nil => simp at hc
  | cons c cs =>
    intro h
    simp only [finiteDifferenceCols, finiteDifferenceNames, List.map_cons, List.cons.injEq] at h
    have h1 := congrArg String.length h.1
    have h2 : (toString d).length = 0 := by
      rw [String.length_append] at h1; omega
    have h3 : toString d = "" := String.length_eq_zero_iff.1 h2
    have := congrArg String.toNat? h3
    have hd := congrArg String.toList h3
    rw [show toString d = Nat.repr d from rfl] at hd
    simp at hd

/-- **C65 for `TSCIdentity`:** the labels agree unless a feature with label `const` exists and `include_const` is used without renaming. -/
theorem C65_identity [One α] (rename const : Bool) (X : Frame α) (h : const = true → rename = false → "const" ∉ X.cols) :
    (identityTransform rename const X).cols = identityNames rename const X.cols := by
  cases const with
  | false => cases rename <;> simp [identityTransform, identityNames]
  | true =>
    cases rename with
    | false => simp [identityTransform, identityNames, setConst, h rfl rfl]
    | true =>
      have : "const" ∉ X.cols.map (· ++ "_id") := by
        intro hm
        obtain ⟨c, -, hc⟩ := List.mem_map.1 hm
        have := congrArg (fun s => s.toList.getLast?) hc
        simp at this
      simp [identityTransform, identityNames, setConst, this]

/-- **C65 fails for `TSCIdentity(include_const=True)`** if the data already has a feature `const`: its values are overwritten. -/
theorem C65_identity_violated : ∃ X : Frame Int, (identityTransform false true X).cols ≠ identityNames false true X.cols ∧
    (identityTransform false true X).rows ≠ X.rows :=
  ⟨⟨["const"], [⟨0, 0, [5]⟩]⟩, by decide, by decide⟩

/-- **C65 for `TSCMovingAverage`.** -/
theorem C65_moving_average [Add α] [Div α] [NatCast α] {w : Int} {k : TimeKind} {X Y : Frame α} (h : movingAverage w k X = .ok Y) :
    Y.cols = movingAverageNames w.toNat X.cols := by
  unfold movingAverage at h
  split at h
  · simp at h
  split at h
  · simp at h
  split at h
  · simp at h
  split at h
  · simp at h
  · simp only [Except.ok.injEq] at h; subst h; rfl

/-- **C65 for `TSCTakensEmbedding`.** -/
theorem C65_takens [Mul α] {p : Params} {k : TimeKind} {X₀ X Y : Frame α} {f : Fitted} {w : Option (Nat → α)} (hf : fit p k X₀ = .ok f)
    (h : transform f w k X = .ok Y) : Y.cols = featureNamesOut X₀.cols f.delays := by
  have := ((transform_eq _ _ _ _ _).1 h).2.2.2.2.2
  rw [(fit_delays hf).2.2.2.1] at this; exact this

/-- **C65 for `TSCFeatureSelect`** and content: exactly the selected columns, in the selected order. -/
theorem C65_feature_select [Inhabited α] {feats : List String} {X Y : Frame α} (h : featureSelect feats X = .ok Y) :
    Y.cols = feats ∧ (∀ f ∈ feats, column Y f = column X f) ∧ Y.rows.map (·.key) = X.rows.map (·.key) := by
  unfold featureSelect at h
  split at h
  · simp at h
  split at h
  · simp at h
  rename_i hnd
  simp only [Except.ok.injEq] at h; subst h
  refine ⟨rfl, ?_, by simp [locCols, Row.key, Function.comp_def]⟩
  intro f hf
  unfold column locCols
  simp only [List.map_map]
  apply List.map_congr_left
  intro r _
  simp only [Function.comp]
  have hlt := List.idxOf_lt_length_of_mem hf
  rw [List.getD_eq_getElem?_getD, List.getElem?_map, List.getElem?_eq_getElem hlt]
  simp

/-- **C66.** Without renaming, and if no feature is called `const`, `inverse_transform(transform(X)) = X`, with or without the constant column. -/
theorem C66_identity_partial [One α] (const : Bool) (X : Frame α) (hc : const = true → "const" ∉ X.cols) (hr : Rect X.cols.length X.rows) :
    identityInverse false const X.cols (identityTransform false const X) = .ok X := by
  have h65 := C65_identity false const X (fun h _ => hc h)
  unfold identityInverse
  rw [if_neg (by simpa using h65)]
  cases const with
  | false => simp [identityTransform]
  | true =>
    have hc := hc rfl
    have hfil : X.cols.filter (fun c => c != "const") = X.cols := by
      rw [List.filter_eq_self]; intro a ha
      simp only [bne_iff_ne, ne_eq]
      intro e; rw [e] at ha; exact hc ha
    have hmap : X.cols.map (fun c => c != "const") = List.replicate X.cols.length true := by
      rw [List.eq_replicate_iff]
      refine ⟨by simp, ?_⟩
      intro b hb
      obtain ⟨c, hcm, rfl⟩ := List.mem_map.1 hb
      simp only [bne_iff_ne, ne_eq]
      intro e; rw [e] at hcm; exact hc hcm
    have hrow : ∀ v : List α, v.length = X.cols.length →
        (((v ++ [1]).zip ((X.cols ++ ["const"]).map (fun c => c != "const"))).filter (fun p : α × Bool => p.2)).map (fun p : α × Bool => p.1) = v := by
      intro v hv
      rw [List.map_append, hmap, List.zip_append (by simp [hv]), List.filter_append]
      simp only [List.map_cons, List.map_nil, bne_self_eq_false, List.zip_cons_cons, List.zip_nil_right, List.map_append]
      rw [List.filter_eq_self.2]
      · simp [← hv, List.map_fst_zip]
      · intro p hp
        have := (List.of_mem_zip hp).2
        rw [List.mem_replicate] at this
        exact this.2
    simp only [identityTransform, Bool.false_eq_true, if_false, if_true, setConst, if_neg hc, dropCol]
    congr 1
    cases X with
    | mk cols rows =>
      simp only at hfil hrow hr ⊢
      congr 1
      · rw [List.filter_append, hfil]; simp
      · rw [List.map_map]
        conv => rhs; rw [← List.map_id rows]
        apply List.map_congr_left
        intro r hrm
        cases r with
        | mk i t v =>
          simp only [Function.comp, id]
          rw [hrow v (hr _ hrm)]

example : identityInverse false true exLambda.cols (identityTransform false true exLambda) = .ok exLambda := by decide

/-- **C66 fails with `rename_features=True`:** the inverse keeps the suffix `_id`, for every input with at least one feature. -/
theorem C66_identity_violated [One α] (X : Frame α) (h : X.cols ≠ []) :
    identityInverse true false X.cols (identityTransform true false X) ≠ .ok X := by
  intro he
  simp only [identityInverse, identityTransform, identityNames, if_true, Bool.false_eq_true, if_false, ne_eq, not_true] at he
  simp only [Except.ok.injEq] at he
  have := congrArg Frame.cols he
  simp only at this
  cases hcs : X.cols with
  | nil => exact h hcs
  | cons c cs =>
    rw [hcs] at this
    simp only [List.map_cons, List.cons.injEq] at this
    have := congrArg String.length this.1
    rw [String.length_append] at this
    have h3 : "_id".length = 3 := by decide
    omega

/-- **C67 fails:** an estimator that was fitted before keeps its old feature names, so fitting again on data with other features does not make it accept
that data. -/
theorem C67_refit_violated : ∃ a b : List String, ((Attrs.new.setup a).setup b).accepts b = false ∧ (Attrs.new.setup b).accepts b = true :=
  ⟨["x"], ["y"], by decide, by decide⟩

/-- **C67 (partial).** Refitting has the same effect as fitting a new estimator if the features are the same; in general the first fit decides, however often
`fit` is called. -/
theorem C67_refit_partial (a : List String) (hist : List (List String)) :
    (hist.foldl Attrs.setup (Attrs.new.setup a)) = Attrs.new.setup a ∧
    (∀ b, (hist.foldl Attrs.setup (Attrs.new.setup a)).accepts b = true ↔ b = a) := by
  have h : hist.foldl Attrs.setup (Attrs.new.setup a) = Attrs.new.setup a := by
    induction hist with
    | nil => rfl
    | cons b l ih => simpa [Attrs.setup, Attrs.new] using ih
  refine ⟨h, ?_⟩
  intro b
  rw [h]
  simp only [Attrs.accepts, Attrs.setup, Attrs.new, Option.getD_none, Bool.and_eq_true, beq_iff_eq, Option.some.injEq]
  constructor
  · rintro ⟨-, h⟩; exact h.symm
  · rintro rfl; exact ⟨rfl, rfl⟩

/-- **C68 fails:** `TSCTakensEmbedding` rewrites integer column labels of the frame the caller passed to strings. -/
theorem C68_argument_violated : ∃ cols, takensArgLabels cols ≠ cols := ⟨[.int 0], by decide⟩

/-- **C68 (partial).** Frames whose labels are strings are left alone, and after the first call nothing changes any more. -/
theorem C68_argument_partial (cols : List Label) : (takensArgLabels cols = cols ↔ ∀ l ∈ cols, ∃ s, l = .str s) ∧
    takensArgLabels (takensArgLabels cols) = takensArgLabels cols := by
  constructor
  · unfold takensArgLabels
    constructor
    · intro h l hl
      have := (List.map_inj_left (f := Label.toStr) (g := id)).1 (by rw [h, List.map_id]) l hl
      cases l with
      | int n => simp [Label.toStr] at this
      | str s => exact ⟨s, rfl⟩
    · intro h
      conv => rhs; rw [← List.map_id cols]
      apply List.map_congr_left
      intro l hl
      obtain ⟨s, rfl⟩ := h l hl; rfl
  · unfold takensArgLabels
    rw [List.map_map]
    apply List.map_congr_left
    intro l _
    cases l <;> rfl

end Verif.Transform
