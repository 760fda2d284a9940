import Verif.Transform.Scalers
import Mathlib.Tactic.FinCases
import Mathlib.Algebra.BigOperators.Group.List.Basic
import Mathlib.Algebra.Order.BigOperators.Group.List
/-! # C162: feature scalers -/

namespace Verif.Transform

/-- Every row has `n` entries, and there are `n` labels. -/
def Table.Ok {α : Type} (X : Table α) : Prop := (∀ v ∈ X.rows, v.length = X.n) ∧ ∀ a, X.cols = some a → a.length = X.n

theorem noZeros_ne (x : ℝ) : noZeros x ≠ 0 := by
  unfold noZeros
  split <;> simp_all

theorem scaleOf_ne (kind : ScaleKind) (l : List ℝ) : scaleOf kind l ≠ 0 := by
  cases kind <;> simp [scaleOf, noZeros_ne]

theorem checkInput_iff {α : Type} (names : Option (List String)) (n : Nat) (X : Table α) :
    checkInput names n X = .ok () ↔ X.n = n ∧ ∀ a b, names = some a → X.cols = some b → a = b := by
  unfold checkInput
  by_cases h : X.n = n
  · cases names with
    | none => simp [h]
    | some a => cases hc : X.cols with
      | none => simp [h]
      | some b => by_cases hab : a = b <;> simp [h, hab]
  · simp [h]

/-- **C162 (round trip).** A scaler fitted to a frame with column names: `inverse_transform` of what `transform` returns is the argument of `transform`, for all data. -/
theorem C162_roundtrip_partial (kind : ScaleKind) {X Y Z : Table ℝ} {a : List String} (hX : X.cols = some a) (hY : Y.Ok) (h : scale (fitScaler kind X) Y = .ok Z) :
    unscale (fitScaler kind X) Z = .ok Y := by
  have hs : ∀ k, (fitScaler kind X).scale k ≠ 0 := fun k => scaleOf_ne kind _
  have hnm : (fitScaler kind X).names = some a := hX
  generalize fitScaler kind X = f at *
  unfold scale at h
  cases hc : checkInput f.names f.n Y with
  | error e => rw [hc] at h; simp at h
  | ok u =>
    cases u
    rw [hc] at h
    simp only [Except.ok.injEq] at h
    obtain ⟨h1, h2⟩ := (checkInput_iff _ _ _).1 hc
    subst h
    unfold unscale
    have hcancel : ∀ k (x : ℝ), (x - f.shift k) / f.scale k * f.scale k + f.shift k = x := by
      intro k x
      have := hs k
      field_simp
      ring
    have hrows : (Y.rows.map (fun v => v.mapIdx (fun k x => (x - f.shift k) / f.scale k))).map (fun v => v.mapIdx (fun k x => x * f.scale k + f.shift k)) = Y.rows := by
      rw [List.map_map]
      conv_rhs => rw [← List.map_id Y.rows]
      apply List.map_congr_left
      intro v _
      apply List.ext_getElem
      · simp
      · intro i _ _
        simp [hcancel]
    simp only [h1, hnm, ne_eq, not_true_eq_false, false_and, if_false]
    cases hcol : Y.cols with
    | none =>
      simp only [Option.map_none, Except.ok.injEq]
      have hr : (Y.rows.map (fun v => v.mapIdx (fun k x => (x - f.shift k) / f.scale k))).map (fun v => v.mapIdx (fun k x => x * f.scale (min k (f.n - 1)) + f.shift (min k (f.n - 1)))) = Y.rows := by
        rw [List.map_map]
        conv_rhs => rw [← List.map_id Y.rows]
        apply List.map_congr_left
        intro v hv
        have hl := hY.1 v hv
        apply List.ext_getElem
        · simp
        · intro i hi _
          have : min i (f.n - 1) = i := by
            simp at hi
            omega
          simp [this, hcancel]
      rw [hr, ← h1, ← hcol]
    | some b =>
      simp only [Option.map_some, Except.ok.injEq]
      rw [hrows]
      rw [h2 a b hnm hcol, ← h1, ← hcol]

/-- **C162 fails for arrays:** a scaler that was fitted to a numpy array cannot map anything back, because `inverse_transform` reads the column names of the training data. -/
theorem C162_array_violated (kind : ScaleKind) {X : Table ℝ} (hX : X.cols = none) (Z : Table ℝ) : ∃ e, unscale (fitScaler kind X) Z = .error e := by
  have hn : (fitScaler kind X).names = none := hX
  unfold unscale
  rw [hn]
  split
  · exact ⟨_, rfl⟩
  · exact ⟨_, rfl⟩

/-- **C162 fails for other labels:** `transform` rejects data whose columns have other labels or another order, `inverse_transform` accepts all labels, reads the columns by position and returns them under
the labels of the training data. -/
theorem C162_labels_violated (kind : ScaleKind) {X : Table ℝ} {a : List String} (hX : X.cols = some a) (b : List String) (hb : a ≠ b) (rows : List (List ℝ)) :
    scale (fitScaler kind X) ⟨some b, X.n, rows⟩ = .error .names ∧ ∃ V, unscale (fitScaler kind X) ⟨some b, X.n, rows⟩ = .ok V ∧ unscale (fitScaler kind X) ⟨some a, X.n, rows⟩ = .ok V ∧ V.cols = some a := by
  have hn : (fitScaler kind X).names = some a := hX
  have hm : (fitScaler kind X).n = X.n := rfl
  constructor
  · simp [scale, checkInput, hn, hm, hb]
  · simp [unscale, hn, hm]

theorem meanOf_affine {l : List ℝ} (hl : l ≠ []) (s c : ℝ) : meanOf (l.map (fun x => (x - s) / c)) = (meanOf l - s) / c := by
  have h0 : (l.length : ℝ) ≠ 0 := by
    have := List.length_pos_iff.2 hl
    positivity
  have hsum : (l.map (fun x => (x - s) / c)).sum = (l.sum - l.length * s) / c := by
    clear h0 hl
    induction l with
    | nil => simp
    | cons x xs ih =>
      simp only [List.map_cons, List.sum_cons, ih, List.length_cons]
      push_cast
      ring
  unfold meanOf
  rw [hsum, List.length_map]
  by_cases hc : c = 0
  · simp [hc]
  · field_simp

theorem varOf_affine {l : List ℝ} (hl : l ≠ []) (s c : ℝ) : varOf (l.map (fun x => (x - s) / c)) = varOf l / c ^ 2 := by
  unfold varOf
  rw [meanOf_affine hl, List.map_map, List.length_map]
  have : ((fun x => (x - (meanOf l - s) / c) ^ 2) ∘ fun x => (x - s) / c) = fun x => (x - meanOf l) ^ 2 * (c ^ 2)⁻¹ := by
    funext x
    simp only [Function.comp]
    rw [← sub_div, div_pow]
    ring
  rw [this, List.sum_map_mul_right]
  ring

theorem varOf_nonneg (l : List ℝ) : 0 ≤ varOf l := by
  unfold varOf
  apply div_nonneg _ (Nat.cast_nonneg _)
  apply List.sum_nonneg
  intro x hx
  obtain ⟨y, -, rfl⟩ := List.mem_map.1 hx
  positivity

theorem varOf_zero_iff {l : List ℝ} (hl : l ≠ []) : varOf l = 0 ↔ ∀ x ∈ l, x = meanOf l := by
  have h0 : (l.length : ℝ) ≠ 0 := by
    have := List.length_pos_iff.2 hl
    positivity
  unfold varOf
  rw [div_eq_zero_iff]
  simp only [h0, or_false]
  generalize meanOf l = m
  clear hl h0
  induction l with
  | nil => simp
  | cons x xs ih =>
    simp only [List.map_cons, List.sum_cons, List.mem_cons, forall_eq_or_imp]
    have hn : 0 ≤ (xs.map (fun x => (x - m) ^ 2)).sum := by
      apply List.sum_nonneg
      intro x hx
      obtain ⟨y, -, rfl⟩ := List.mem_map.1 hx
      positivity
    rw [add_eq_zero_iff_of_nonneg (sq_nonneg _) hn]
    exact and_congr (by rw [sq_eq_zero_iff, sub_eq_zero]) ih

theorem minOf_spec {l : List ℝ} (hl : l ≠ []) : minOf l ∈ l ∧ ∀ y ∈ l, minOf l ≤ y := by
  obtain ⟨x, xs, rfl⟩ := List.exists_cons_of_ne_nil hl
  simp only [minOf, List.tail_cons, List.headD_cons]
  clear hl
  induction xs with
  | nil => simp
  | cons z zs ih =>
    simp only [List.foldr_cons, List.mem_cons, forall_eq_or_imp] at ih ⊢
    rcases min_choice z (zs.foldr min x) with e | e
    · exact ⟨.inr (.inl e), (min_le_right _ _).trans ih.2.1, min_le_left _ _, fun y hy => (min_le_right _ _).trans (ih.2.2 y hy)⟩
    · rw [e]
      exact ⟨ih.1.elim .inl (fun h => .inr (.inr h)), ih.2.1, e ▸ min_le_left _ _, ih.2.2⟩

theorem maxOf_spec {l : List ℝ} (hl : l ≠ []) : maxOf l ∈ l ∧ ∀ y ∈ l, y ≤ maxOf l := by
  obtain ⟨x, xs, rfl⟩ := List.exists_cons_of_ne_nil hl
  simp only [maxOf, List.tail_cons, List.headD_cons]
  clear hl
  induction xs with
  | nil => simp
  | cons z zs ih =>
    simp only [List.foldr_cons, List.mem_cons, forall_eq_or_imp] at ih ⊢
    rcases max_choice z (zs.foldr max x) with e | e
    · exact ⟨.inr (.inl e), ih.2.1.trans (le_max_right _ _), le_max_left _ _, fun y hy => (ih.2.2 y hy).trans (le_max_right _ _)⟩
    · rw [e]
      exact ⟨ih.1.elim .inl (fun h => .inr (.inr h)), ih.2.1, e ▸ le_max_left _ _, ih.2.2⟩

theorem scaled_col {kind : ScaleKind} {X Z : Table ℝ} (hX : X.Ok) (h : scale (fitScaler kind X) X = .ok Z) {k : Nat} (hk : k < X.n) :
    colOf Z k = (colOf X k).map (fun x => (x - shiftOf kind (colOf X k)) / scaleOf kind (colOf X k)) := by
  unfold scale at h
  split at h
  · simp at h
  · simp only [Except.ok.injEq] at h
    subst h
    unfold colOf
    simp only [List.map_map]
    apply List.map_congr_left
    intro v hv
    have hl := hX.1 v hv
    simp [List.getD_eq_getElem?_getD, hl, hk, fitScaler, colOf]

/-- **C162 (training data).** The scaled training data exist, with the columns and number of rows of the training data; with `center` every feature has the mean zero; with `standard` the mean zero and
variance one, and with `min-max` the smallest value zero and the largest value one, unless the feature is constant: then all values are zero. -/
theorem C162_training (kind : ScaleKind) {X : Table ℝ} (hX : X.Ok) (hne : X.rows ≠ []) : ∃ Z, scale (fitScaler kind X) X = .ok Z ∧ Z.cols = X.cols ∧ Z.n = X.n ∧ Z.rows.length = X.rows.length ∧
    ∀ k, k < X.n →
      (kind = .center → meanOf (colOf Z k) = 0 ∧ varOf (colOf Z k) = varOf (colOf X k)) ∧
      (kind = .standard → meanOf (colOf Z k) = 0 ∧ ((∃ x ∈ colOf X k, ∃ y ∈ colOf X k, x ≠ y) → varOf (colOf Z k) = 1)) ∧
      (kind = .minMax → (∀ z ∈ colOf Z k, 0 ≤ z ∧ z ≤ 1) ∧ 0 ∈ colOf Z k ∧ ((∃ x ∈ colOf X k, ∃ y ∈ colOf X k, x ≠ y) → 1 ∈ colOf Z k)) ∧
      ((∀ x ∈ colOf X k, ∀ y ∈ colOf X k, x = y) → ∀ z ∈ colOf Z k, z = 0) := by
  have hc : checkInput (fitScaler kind X).names (fitScaler kind X).n X = .ok () := by
    rw [checkInput_iff]
    refine ⟨rfl, fun a b h1 h2 => ?_⟩
    have : X.cols = some a := h1
    simp_all
  have hz : ∃ Z, scale (fitScaler kind X) X = .ok Z ∧ Z.cols = X.cols ∧ Z.n = X.n ∧ Z.rows.length = X.rows.length := by
    unfold scale
    rw [hc]
    refine ⟨_, rfl, ?_, rfl, by simp⟩
    have : (fitScaler kind X).names = X.cols := rfl
    cases h : X.cols <;> simp [this, h]
  obtain ⟨Z, h, hZ⟩ := hz
  refine ⟨Z, h, hZ.1, hZ.2.1, hZ.2.2, fun k hk => ?_⟩
  have hcol := scaled_col hX h hk
  have hlne : colOf X k ≠ [] := by simpa [colOf] using hne
  generalize colOf X k = l at *
  generalize colOf Z k = z at *
  subst hcol
  refine ⟨?_, ?_, ?_, ?_⟩
  · rintro rfl
    rw [meanOf_affine hlne, varOf_affine hlne]
    simp [shiftOf, scaleOf]
  · rintro rfl
    rw [meanOf_affine hlne, varOf_affine hlne]
    refine ⟨by simp [shiftOf], ?_⟩
    rintro ⟨x, hx, y, hy, hxy⟩
    have hv : varOf l ≠ 0 := by
      intro h0
      have := (varOf_zero_iff hlne).1 h0
      exact hxy ((this x hx).trans (this y hy).symm)
    have hs : Real.sqrt (varOf l) ≠ 0 := by
      rw [Real.sqrt_ne_zero (varOf_nonneg l)]
      exact hv
    simp only [scaleOf, noZeros, if_neg hs, Real.sq_sqrt (varOf_nonneg l)]
    exact div_self hv
  · rintro rfl
    obtain ⟨m1, m2⟩ := minOf_spec hlne
    obtain ⟨M1, M2⟩ := maxOf_spec hlne
    have hle : 0 ≤ maxOf l - minOf l := sub_nonneg.2 (m2 _ M1)
    have hpos : 0 < scaleOf .minMax l := by
      refine lt_of_le_of_ne ?_ (scaleOf_ne _ _).symm
      simp only [scaleOf, noZeros]
      split
      · exact zero_le_one
      · exact hle
    refine ⟨?_, ?_, ?_⟩
    · intro z hz
      obtain ⟨x, hx, rfl⟩ := List.mem_map.1 hz
      have h1 := m2 x hx
      have h2 := M2 x hx
      refine ⟨div_nonneg (sub_nonneg.2 h1) hpos.le, ?_⟩
      rw [div_le_one hpos]
      simp only [shiftOf, scaleOf, noZeros]
      split
      · rename_i h0
        linarith
      · linarith
    · exact List.mem_map.2 ⟨minOf l, m1, by simp [shiftOf]⟩
    · rintro ⟨x, hx, y, hy, hxy⟩
      have hn : maxOf l - minOf l ≠ 0 := by
        intro h0
        apply hxy
        have := m2 x hx; have := M2 x hx; have := m2 y hy; have := M2 y hy
        linarith
      refine List.mem_map.2 ⟨maxOf l, M1, ?_⟩
      simp only [shiftOf, scaleOf, noZeros, if_neg hn]
      exact div_self hn
  · intro hconst z hz
    obtain ⟨x, hx, rfl⟩ := List.mem_map.1 hz
    have hsh : x = shiftOf kind l := by
      cases kind with
      | minMax => exact hconst x hx _ (minOf_spec hlne).1
      | center => exact mean_const hlne hconst x hx
      | standard => exact mean_const hlne hconst x hx
    rw [← hsh]
    simp
where
  /-- The mean of equal values. -/
  mean_const {l : List ℝ} (hl : l ≠ []) (h : ∀ x ∈ l, ∀ y ∈ l, x = y) (x : ℝ) (hx : x ∈ l) : x = meanOf l := by
    have h0 : (l.length : ℝ) ≠ 0 := by
      have := List.length_pos_iff.2 hl
      positivity
    have : l = List.replicate l.length x := List.eq_replicate_iff.2 ⟨rfl, fun y hy => h y hy x hx⟩
    unfold meanOf
    rw [this]
    simp only [List.sum_replicate, List.length_replicate, nsmul_eq_mul]
    field_simp

/-- Two features, the second one constant. -/
def exScale : Table ℝ := ⟨some ["a", "b"], 2, [[0, 5], [2, 5]]⟩

example : exScale.Ok ∧ exScale.rows ≠ [] ∧ (∃ x ∈ colOf exScale 0, ∃ y ∈ colOf exScale 0, x ≠ y) ∧ ∀ x ∈ colOf exScale 1, ∀ y ∈ colOf exScale 1, x = y := by
  refine ⟨⟨by simp [exScale], by simp [exScale]⟩, by simp [exScale], ⟨0, by simp [exScale, colOf], 2, by simp [exScale, colOf], by norm_num⟩, by simp [exScale, colOf]⟩

/-- The columns of the scaled data exchanged, together with their labels: `inverse_transform` gives the labels of the training data to the wrong columns. -/
example : scale (fitScaler .minMax exScale) ⟨some ["a", "b"], 2, [[2, 5]]⟩ = .ok ⟨some ["a", "b"], 2, [[1, 0]]⟩ ∧
    unscale (fitScaler .minMax exScale) ⟨some ["b", "a"], 2, [[0, 1]]⟩ = .ok ⟨some ["a", "b"], 2, [[0, 6]]⟩ := by
  constructor
  · norm_num [scale, checkInput, fitScaler, exScale, shiftOf, scaleOf, colOf, minOf, maxOf, noZeros]
  · norm_num [unscale, checkInput, fitScaler, exScale, shiftOf, scaleOf, colOf, minOf, maxOf, noZeros]

end Verif.Transform
