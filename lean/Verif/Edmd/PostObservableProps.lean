import Verif.Edmd.PostObservable
import Verif.Tsc.SelectProps
/-!
# C178 and C179: error observables and HAVOK
-/

namespace Verif.Edmd

open Verif.Tsc Verif.Np Verif.Dyn Matrix

/-! ### Helper lemmas -/

theorem mapM_postRow {V : Type} {X : List (Row Int V)} (hv : Valid X) (rows : List (Row Int V)) (xs : List (Row Int V)) :
    rows.mapM (fun r => postRow X r.key) = .ok xs ↔ xs.map (·.key) = rows.map (·.key) ∧ ∀ x ∈ xs, x ∈ X := by
  have hp : ∀ (k : Key Int) (r : Row Int V), postRow X k = .ok r ↔ r ∈ X ∧ r.key = k := by
    intro k r
    rw [← rowAt_ok hv]
    unfold postRow
    cases rowAt X k <;> simp
  induction rows generalizing xs with
  | nil =>
    rw [List.mapM_nil]
    constructor
    · intro h; cases h; simp
    · rintro ⟨h, -⟩
      simp only [List.map_nil, List.map_eq_nil_iff] at h
      subst h; rfl
  | cons r rows ih =>
    rw [List.mapM_cons]
    constructor
    · intro h
      cases h1 : postRow X r.key with
      | error e => rw [h1] at h; cases h
      | ok x =>
        rw [h1] at h
        cases h2 : rows.mapM (fun r => postRow X r.key) with
        | error e => rw [h2] at h; cases h
        | ok ys =>
          rw [h2] at h
          cases h
          obtain ⟨hx, hk⟩ := (hp _ _).1 h1
          obtain ⟨hys, hm⟩ := (ih ys).1 h2
          refine ⟨by rw [List.map_cons, List.map_cons, hk, hys], ?_⟩
          intro y hy
          rcases List.mem_cons.1 hy with rfl | hy
          · exact hx
          · exact hm y hy
    · rintro ⟨h, hm⟩
      cases xs with
      | nil => simp at h
      | cons x xs =>
        rw [List.map_cons, List.map_cons, List.cons.injEq] at h
        rw [(hp _ _).2 ⟨hm x List.mem_cons_self, h.1⟩, (ih xs).2 ⟨h.2, fun y hy => hm y (List.mem_cons_of_mem _ hy)⟩]
        rfl

theorem errSeries_ok {n : Nat} {X R E : List (Row Int (Fin n → ℝ))} (hX : Valid X) (h : errSeries X R = .ok E) :
    E.map (·.key) = (R.drop 1).map (·.key) ∧
      ∀ e ∈ E, ∃ x ∈ X, ∃ r ∈ R.drop 1, x.key = e.key ∧ r.key = e.key ∧ ∀ j, e.val j = |x.val j - r.val j| := by
  unfold errSeries at h
  cases hc : construct (R.drop 1) with
  | error e => rw [hc] at h; cases h
  | ok R' =>
    rw [hc] at h
    obtain ⟨rfl, -⟩ := (construct_ok_iff _ _).1 hc
    dsimp only at h
    cases hm : (R.drop 1).mapM (fun r => postRow X r.key) with
    | error e => rw [hm] at h; cases h
    | ok xs =>
      rw [hm] at h
      cases h
      obtain ⟨hk, hx⟩ := (mapM_postRow hX _ _).1 hm
      have hl : xs.length = (R.drop 1).length := by simpa using congrArg List.length hk
      constructor
      · apply List.ext_getElem
        · simp [hl]
        · intro i h1 h2
          simp [Row.key]
      · intro e he
        obtain ⟨i, hi, rfl⟩ := List.getElem_of_mem he
        have h1 : i < xs.length := by simp at hi; omega
        have h2 : i < (R.drop 1).length := by omega
        have h3 : xs[i].key = (R.drop 1)[i].key := by
          have := congrArg (fun l => l[i]?) hk
          simp only [List.getElem?_map, List.getElem?_eq_getElem h1, List.getElem?_eq_getElem h2, Option.map_some, Option.some.injEq] at this
          exact this
        refine ⟨xs[i], hx _ (List.getElem_mem _), (R.drop 1)[i], List.getElem_mem _, ?_, ?_, ?_⟩
        · rw [h3]; simp [Row.key]
        · simp [Row.key]
        · intro j; simp

theorem errSeries_total {n : Nat} {X R : List (Row Int (Fin n → ℝ))} (hX : Valid X) (hR : Valid R) (h2 : 2 ≤ R.length) (hk : ∀ r ∈ R, r.key ∈ X.map (·.key)) :
    ∃ E, errSeries X R = .ok E := by
  have hc : construct (R.drop 1) = .ok (R.drop 1) := by
    rw [construct_ok_iff]
    refine ⟨rfl, ?_, hR.sublist (List.drop_sublist _ _)⟩
    intro h
    have := congrArg List.length h
    simp at this
    omega
  have hall : ∀ l : List (Row Int (Fin n → ℝ)), (∀ r ∈ l, r.key ∈ X.map (·.key)) → ∃ xs : List (Row Int (Fin n → ℝ)), xs.map (·.key) = l.map (·.key) ∧ ∀ x ∈ xs, x ∈ X := by
    intro l
    induction l with
    | nil => intro _; exact ⟨[], rfl, by simp⟩
    | cons r l ih =>
      intro h
      obtain ⟨xs, h1, h2⟩ := ih (fun r hr => h r (List.mem_cons_of_mem _ hr))
      obtain ⟨x, hx, hxk⟩ := List.mem_map.1 (h r List.mem_cons_self)
      refine ⟨x :: xs, by rw [List.map_cons, List.map_cons, h1, hxk], ?_⟩
      intro y hy
      rcases List.mem_cons.1 hy with rfl | hy
      · exact hx
      · exact h2 y hy
  obtain ⟨xs, h1, h2⟩ := hall (R.drop 1) (fun r hr => hk r (List.mem_of_mem_drop hr))
  unfold errSeries
  rw [hc]
  dsimp only
  rw [(mapM_postRow hX _ _).2 ⟨h1, h2⟩]
  exact ⟨_, rfl⟩

theorem row_of_key {n : Nat} {X : List (Row Int (Fin n → ℝ))} (hX : Valid X) {x y : Row Int (Fin n → ℝ)} (hx : x ∈ X) (hy : y ∈ X) (h : x.key = y.key) : x = y :=
  List.inj_on_of_nodup_map (nodup_keys_of_pairwise X ((valid_iff X).1 hX).2) hx hy h

theorem mapM_id_ok {ε α : Type} (l : List (Except ε α)) (r : List α) : l.mapM id = .ok r ↔ l = r.map .ok := by
  induction l generalizing r with
  | nil =>
    rw [List.mapM_nil]
    constructor
    · intro h; cases h; rfl
    · intro h
      cases r with
      | nil => rfl
      | cons a r => cases h
  | cons a l ih =>
    rw [List.mapM_cons]
    cases a with
    | error e =>
      constructor
      · intro h; cases h
      · intro h
        cases r with
        | nil => cases h
        | cons a r => cases h
    | ok a =>
      constructor
      · intro h
        cases hl : l.mapM id with
        | error e =>
          change (do let bs ← l.mapM id; pure (a :: bs) : Except ε (List α)) = _ at h
          rw [hl] at h; cases h
        | ok bs =>
          change (do let bs ← l.mapM id; pure (a :: bs) : Except ε (List α)) = _ at h
          rw [hl] at h; cases h
          rw [(ih bs).1 hl]; rfl
      · intro h
        cases r with
        | nil => cases h
        | cons b r =>
          rw [List.map_cons, List.cons.injEq, Except.ok.injEq] at h
          change (do let bs ← l.mapM id; pure (a :: bs) : Except ε (List α)) = _
          rw [(ih r).2 h.2, h.1]; rfl

/-- The normal equation of the Moore-Penrose inverse. -/
theorem IsPinv.normal {m ρ : Type} [Fintype m] [Fintype ρ] {A : Matrix m ρ ℝ} {P : Matrix ρ m ℝ} (h : IsPinv A P) : Aᵀ * A * P = Aᵀ := by
  calc Aᵀ * A * P = Aᵀ * (A * P) := Matrix.mul_assoc _ _ _
    _ = Aᵀ * (A * P)ᵀ := by rw [h.symA]
    _ = (A * P * A)ᵀ := by rw [Matrix.transpose_mul (A * P) A]
    _ = Aᵀ := by rw [h.apa]

/-! ### Properties -/

/-- **C178** error of the observables (`errSeries`): for valid data and a reconstruction with at least two rows whose keys are all present in the data, the error time series has exactly the keys of the
reconstruction without its first row, and at each key every entry is the absolute difference of data and reconstruction. -/
theorem C178_error {n : Nat} {X R : List (Row Int (Fin n → ℝ))} (hX : Valid X) (hR : Valid R) (h2 : 2 ≤ R.length) (hk : ∀ r ∈ R, r.key ∈ X.map (·.key)) :
    ∃ E, errSeries X R = .ok E ∧ E.map (·.key) = (R.map (·.key)).tail ∧
      ∀ e ∈ E, ∀ x ∈ X, ∀ r ∈ R, x.key = e.key → r.key = e.key → ∀ j, e.val j = |x.val j - r.val j| := by
  obtain ⟨E, hE⟩ := errSeries_total hX hR h2 hk
  obtain ⟨h3, h4⟩ := errSeries_ok hX hE
  refine ⟨E, hE, by rw [h3, List.map_drop, List.drop_one], ?_⟩
  intro e he x hx r hr hxe hre j
  obtain ⟨x', hx', r', hr', h5, h6, h7⟩ := h4 e he
  rw [row_of_key hX hx hx' (hxe.trans h5.symm), row_of_key hR hr (List.mem_of_mem_drop hr') (hre.trans h6.symm)]
  exact h7 j

/-- Non-vacuity: two samples reconstructed from the first of them. -/
example : ∃ E, errSeries (n := 1) [⟨0, 0, fun _ => 1⟩, ⟨0, 1, fun _ => 3⟩] [⟨0, 0, fun _ => 1⟩, ⟨0, 1, fun _ => 5⟩] = .ok E :=
  errSeries_total ((valid_iff _).2 ⟨by decide, by simp [Before]⟩) ((valid_iff _).2 ⟨by decide, by simp [Before]⟩) (by decide) (by simp [Row.key])

/-- **C178** is violated: with several time series only the first initial state is removed. Whenever the error time series is computed, the initial state of every other series is contained in it. -/
theorem C178_initial_violated {n : Nat} {X R E : List (Row Int (Fin n → ℝ))} (hX : Valid X) (hR : Valid R) (h : errSeries X R = .ok E) {r0 r : Row Int (Fin n → ℝ)} (h0 : R.head? = some r0)
    (hr : (R.filter (fun x => x.id = r.id)).head? = some r) (hne : r.id ≠ r0.id) : r.key ∈ E.map (·.key) := by
  obtain ⟨h3, -⟩ := errSeries_ok hX h
  rw [h3]
  have hm : r ∈ R := (List.mem_filter.1 (List.mem_of_mem_head? hr)).1
  cases R with
  | nil => simp at hm
  | cons a R =>
    simp only [List.head?_cons, Option.some.injEq] at h0
    subst h0
    rcases List.mem_cons.1 hm with rfl | hm
    · exact absurd rfl hne
    · exact List.mem_map.2 ⟨r, hm, rfl⟩

/-- Non-vacuity: the initial state of the second series is an entry of the error time series. -/
example : ∃ E, errSeries (n := 1) [⟨0, 0, fun _ => 1⟩, ⟨0, 1, fun _ => 3⟩, ⟨1, 0, fun _ => 2⟩, ⟨1, 1, fun _ => 4⟩]
    [⟨0, 0, fun _ => 1⟩, ⟨0, 1, fun _ => 5⟩, ⟨1, 0, fun _ => 2⟩, ⟨1, 1, fun _ => 4⟩] = .ok E ∧ (⟨1, 0⟩ : Key Int) ∈ E.map (·.key) := by
  obtain ⟨E, hE⟩ := errSeries_total (n := 1) (X := [⟨0, 0, fun _ => 1⟩, ⟨0, 1, fun _ => 3⟩, ⟨1, 0, fun _ => 2⟩, ⟨1, 1, fun _ => 4⟩])
    (R := [⟨0, 0, fun _ => 1⟩, ⟨0, 1, fun _ => 5⟩, ⟨1, 0, fun _ => 2⟩, ⟨1, 1, fun _ => 4⟩]) ((valid_iff _).2 ⟨by decide, by simp [Before]⟩) ((valid_iff _).2 ⟨by decide, by simp [Before]⟩) (by decide) (by simp [Row.key])
  exact ⟨E, hE, C178_initial_violated (r := ⟨1, 0, fun _ => 2⟩) ((valid_iff _).2 ⟨by decide, by simp [Before]⟩) ((valid_iff _).2 ⟨by decide, by simp [Before]⟩) hE (by rfl) (by rfl) (by decide)⟩

/-- **C178** is violated: no call of `fit_transform` returns a model. -/
theorem C178_fit_violated {M L : Type} {n : Nat} (isEdmd fitted : Bool) (o : ObservableArg)
    (run : (Except PostErr (List (Row Int (Fin n → ℝ)) × List (Row Int (Fin n → ℝ)) × M)) ⊕ List (Except PostErr (PostSplit M n)))
    (transform : M → List (Row Int (Fin n → ℝ)) → Except PostErr L) (m : M) : postFit isEdmd fitted o run transform ≠ .ok m := by
  unfold postFit
  split
  · simp
  · split
    · simp
    · unfold adaptModel
      split <;> simp

/-- **C178** the model chosen by cross validation (`argmaxFirst`): the first position with the largest score. -/
theorem C178_best {l : List ℝ} {k : Nat} (h : argmaxFirst l = some k) : ∃ hk : k < l.length, (∀ x ∈ l, x ≤ l[k]) ∧ ∀ i (hi : i < k), l[i] < l[k] := by
  induction l generalizing k with
  | nil => cases h
  | cons x l ih =>
    simp only [argmaxFirst] at h
    cases hl : argmaxFirst l with
    | none =>
      rw [hl] at h
      cases l with
      | nil =>
        cases h
        exact ⟨by simp, by simp, by intro i hi; omega⟩
      | cons y l =>
        simp only [argmaxFirst] at hl
        split at hl
        · cases hl
        · split at hl <;> cases hl
    | some q =>
      rw [hl] at h
      dsimp only at h
      obtain ⟨hq, h1, h2⟩ := ih hl
      rw [show l.getD q 0 = l[q] by simp [List.getD, hq]] at h
      split at h
      · rename_i hx
        cases h
        refine ⟨by simp [hq], ?_, ?_⟩
        · intro y hy
          rw [List.getElem_cons_succ]
          rcases List.mem_cons.1 hy with rfl | hy
          · exact hx.le
          · exact h1 y hy
        · intro i hi
          cases i with
          | zero => simpa using hx
          | succ i => simpa using h2 i (by omega)
      · rename_i hx
        cases h
        refine ⟨by simp, ?_, by intro i hi; omega⟩
        intro y hy
        rw [List.getElem_cons_zero]
        rcases List.mem_cons.1 hy with rfl | hy
        · exact le_rfl
        · exact (h1 y hy).trans (not_lt.1 hx)

/-- Non-vacuity: the largest score is attained twice. -/
example : argmaxFirst [0, 2, 1, 2] = some 1 := by
  simp [argmaxFirst]

/-- **C178** cross validation (`postCv`): an accepted run has evaluated every split; the model is that of the first split with the largest score, and the data and error time series of all splits are used. -/
theorem C178_choice {M : Type} {n : Nat} {splits : List (Except PostErr (PostSplit M n))} {X err : List (Row Int (Fin n → ℝ))} {m : M} (h : postCv splits = .ok (X, err, m)) :
    ∃ ret : List (PostSplit M n), splits = ret.map .ok ∧ X = (ret.map (·.test)).flatten ∧ err = (ret.map (·.err)).flatten ∧
      ∃ k, ∃ hk : k < ret.length, m = ret[k].model ∧ (∀ s ∈ ret, s.score ≤ ret[k].score) ∧ ∀ i (hi : i < k), ret[i].score < ret[k].score := by
  unfold postCv at h
  cases hm : splits.mapM id with
  | error e => rw [hm] at h; cases h
  | ok ret =>
    rw [hm] at h
    dsimp only at h
    cases ha : argmaxFirst (ret.map (·.score)) with
    | none => rw [ha] at h; cases h
    | some k =>
      rw [ha] at h
      dsimp only at h
      obtain ⟨hk, h1, h2⟩ := C178_best ha
      rw [List.length_map] at hk
      rw [List.getElem?_eq_getElem hk] at h
      cases h
      refine ⟨ret, (mapM_id_ok _ _).1 hm, rfl, rfl, k, hk, rfl, ?_, ?_⟩
      · intro s hs
        simpa using h1 s.score (List.mem_map.2 ⟨s, hs, rfl⟩)
      · intro i hi
        simpa using h2 i hi

/-- Non-vacuity: the second of two splits is better. -/
example : postCv (M := Bool) (n := 1) [.ok ⟨-2, false, [], []⟩, .ok ⟨-1, true, [], []⟩] = .ok ([], [], true) := by
  have h : argmaxFirst [(-2 : ℝ), -1] = some 1 := by norm_num [argmaxFirst]
  have h2 : ([.ok ⟨-2, false, [], []⟩, .ok ⟨-1, true, [], []⟩] : List (Except PostErr (PostSplit Bool 1))).mapM id = .ok [⟨-2, false, [], []⟩, ⟨-1, true, [], []⟩] := (mapM_id_ok _ _).2 rfl
  unfold postCv
  rw [h2]
  dsimp only [List.map]
  rw [h]; rfl

/-- **C178** the settings (`postValidate` in `fit_transform`): another estimator, a fitted model and an unknown observable are refused, in this order and before any fit; otherwise the
error is that of the fits, that of `transform`, or the missing argument. -/
theorem C178_refused {M L : Type} {n : Nat} (isEdmd fitted : Bool) (o : ObservableArg)
    (run : (Except PostErr (List (Row Int (Fin n → ℝ)) × List (Row Int (Fin n → ℝ)) × M)) ⊕ List (Except PostErr (PostSplit M n)))
    (transform : M → List (Row Int (Fin n → ℝ)) → Except PostErr L) :
    (isEdmd = false → postFit isEdmd fitted o run transform = .error .estimatorType) ∧
    (isEdmd = true → fitted = true → postFit isEdmd fitted o run transform = .error .alreadyFitted) ∧
    (isEdmd = true → fitted = false → o ≠ .std → o ≠ .abserr → postFit isEdmd fitted o run transform = .error .observable) ∧
    (isEdmd = true → fitted = false → o = .std ∨ o = .abserr → ∀ X err m D, run = .inl (.ok (X, err, m)) → transform m X = .ok D →
      postFit isEdmd fitted o run transform = .error .missingArgument) := by
  refine ⟨?_, ?_, ?_, ?_⟩
  · rintro rfl; simp [postFit, postValidate]
  · rintro rfl rfl; simp [postFit, postValidate]
  · rintro rfl rfl h1 h2
    cases o <;> simp_all [postFit, postValidate]
  · rintro rfl rfl ho X err m D rfl hD
    rcases ho with rfl | rfl <;> simp [postFit, postValidate, adaptModel, hD]

/-- Non-vacuity: a model that is fitted already. -/
example : postFit (M := Unit) (L := Unit) (n := 1) true true .std (.inr []) (fun _ _ => .ok ()) = .error .alreadyFitted :=
  (C178_refused _ _ _ _ _).2.1 rfl rfl
section Havok

variable {m k ρ T : Type} [Fintype m] [Fintype k] [Fintype ρ] [Fintype T] [DecidableEq k] [DecidableEq ρ]

/-- **C179** `transform` of the training data (`havokTransform`): let the delay embedded training data `X` have the singular value decomposition `Xᵀ = U diag(S) Vᵀ` with orthonormal columns of `U`, and
let the selected singular values not vanish. Then `transform` returns the selected columns of `V`, the coordinates in which the linear model was fitted. -/
theorem C179_transform {U : Matrix m k ℝ} {S : k → ℝ} {V : Matrix T k ℝ} {X : Matrix T m ℝ} (hU : Uᵀ * U = 1) (hX : Xᵀ = U * diagonal S * Vᵀ) {sel : ρ → k}
    (hs : Function.Injective sel) (hS : ∀ j, S (sel j) ≠ 0) {P : Matrix ρ m ℝ} (hP : IsPinv (havokUr U S sel) P) : havokTransform P X = V.submatrix id sel := by
  have hUU : ∀ a b, ∑ i, U i a * U i b = if a = b then 1 else 0 := by
    intro a b
    have := congrFun (congrFun hU a) b
    simpa [Matrix.mul_apply, Matrix.one_apply] using this
  have hA : ∀ i j, havokUr U S sel i j = U i (sel j) * S (sel j) := by
    intro i j
    simp [havokUr, Matrix.mul_diagonal]
  have hAA : (havokUr U S sel)ᵀ * havokUr U S sel = diagonal (fun j => S (sel j) ^ 2) := by
    ext a b
    rw [Matrix.mul_apply, Matrix.diagonal_apply]
    simp only [Matrix.transpose_apply, hA]
    have : ∀ i, U i (sel a) * S (sel a) * (U i (sel b) * S (sel b)) = S (sel a) * S (sel b) * (U i (sel a) * U i (sel b)) := fun i => by ring
    simp only [this, ← Finset.mul_sum, hUU, hs.eq_iff]
    split
    · rename_i hab; subst hab; ring
    · ring
  have hAU : (havokUr U S sel)ᵀ * (U * diagonal S) = Matrix.of (fun j l => if sel j = l then S (sel j) ^ 2 else 0) := by
    ext a b
    rw [Matrix.mul_apply, Matrix.of_apply]
    simp only [Matrix.transpose_apply, hA, Matrix.mul_diagonal]
    have : ∀ i, U i (sel a) * S (sel a) * (U i b * S b) = S (sel a) * S b * (U i (sel a) * U i b) := fun i => by ring
    simp only [this, ← Finset.mul_sum, hUU]
    split
    · rename_i hab; subst hab; ring
    · ring
  have hN := hP.normal
  rw [hAA] at hN
  have h1 : diagonal (fun j => S (sel j) ^ 2) * (P * Xᵀ) = (havokUr U S sel)ᵀ * (U * diagonal S) * Vᵀ := by
    rw [← Matrix.mul_assoc, hN, hX, ← Matrix.mul_assoc]
  ext t j
  have h2 := congrFun (congrFun h1 j) t
  rw [hAU, Matrix.diagonal_mul] at h2
  have h3 : (Matrix.of (fun j l => if sel j = l then S (sel j) ^ 2 else 0) * Vᵀ) j t = S (sel j) ^ 2 * V t (sel j) := by
    rw [Matrix.mul_apply]
    simp only [Matrix.of_apply, Matrix.transpose_apply, ite_mul, zero_mul, Finset.sum_ite_eq, Finset.mem_univ, if_true]
  rw [h3] at h2
  exact mul_left_cancel₀ (pow_ne_zero 2 (hS j)) h2

/-- Non-vacuity: one component of two, with singular value 2. -/
example : IsPinv (havokUr (1 : Matrix (Fin 2) (Fin 2) ℝ) ![2, 1] (fun _ : Fin 1 => 0)) !![1 / 2, 0] ∧
    havokTransform (T := Fin 1) (!![1 / 2, 0] : Matrix (Fin 1) (Fin 2) ℝ) (((1 : Matrix (Fin 2) (Fin 2) ℝ) * diagonal ![2, 1] * (!![3, 5] : Matrix (Fin 1) (Fin 2) ℝ)ᵀ)ᵀ) = !![3] := by
  have hA : havokUr (1 : Matrix (Fin 2) (Fin 2) ℝ) ![2, 1] (fun _ : Fin 1 => 0) = !![2; 0] := by
    ext i j
    have hj : j = 0 := Subsingleton.elim _ _
    subst hj
    fin_cases i
    · simp only [havokUr, Matrix.mul_diagonal, Matrix.submatrix_apply]
      change (1 : Matrix (Fin 2) (Fin 2) ℝ) 0 0 * 2 = 2
      rw [Matrix.one_apply_eq]; norm_num
    · simp only [havokUr, Matrix.mul_diagonal, Matrix.submatrix_apply]
      change (1 : Matrix (Fin 2) (Fin 2) ℝ) 1 0 * 2 = 0
      rw [Matrix.one_apply_ne (by decide)]; norm_num
  have hP : IsPinv (havokUr (1 : Matrix (Fin 2) (Fin 2) ℝ) ![2, 1] (fun _ : Fin 1 => 0)) !![1 / 2, 0] := by
    rw [hA]
    refine ⟨?_, ?_, ?_, ?_⟩ <;> ext i j <;> fin_cases i <;> fin_cases j <;> norm_num [Matrix.mul_apply, Fin.sum_univ_two, Matrix.vecMul, Matrix.vecHead]
  refine ⟨hP, ?_⟩
  rw [C179_transform (V := !![3, 5]) (by simp) (by rw [Matrix.transpose_transpose]) (fun _ _ _ => Subsingleton.elim _ _) (by intro j; norm_num) hP]
  ext i j
  fin_cases i
  fin_cases j
  rfl

/-- **C179** `fit` (`IsHavokFit`): if the derivatives of the first coordinates satisfy a forced linear equation exactly and the coordinates are linearly independent, `fit` recovers the state matrix and the
forcing vector. -/
theorem C179_recovery {V : Matrix T (ρ ⊕ Unit) ℝ} {A₀ A : Matrix ρ ρ ℝ} {B₀ B : Matrix ρ Unit ℝ} (hV : IsUnit (Vᵀ * V))
    (h : IsHavokFit V (V * (fromCols A₀ B₀)ᵀ) A B) : A = A₀ ∧ B = B₀ := by
  unfold IsHavokFit at h
  have h1 := (Lin.isLstsqM_iff _ _ _).1 h
  rw [← Matrix.mul_assoc] at h1
  obtain ⟨W, hW⟩ := hV.exists_left_inv
  have h2 := congrArg (W * ·) h1
  rw [← Matrix.mul_assoc W (Vᵀ * V), ← Matrix.mul_assoc W (Vᵀ * V), hW, Matrix.one_mul, Matrix.one_mul] at h2
  have h3 := congrArg Matrix.transpose h2
  rw [Matrix.transpose_transpose, Matrix.transpose_transpose] at h3
  constructor
  · ext i j
    exact congrFun (congrFun h3 i) (Sum.inl j)
  · ext i j
    exact congrFun (congrFun h3 i) (Sum.inr j)

/-- Non-vacuity: two samples of one coordinate and the forcing. -/
example : IsUnit ((1 : Matrix (Unit ⊕ Unit) (Unit ⊕ Unit) ℝ)ᵀ * 1) ∧
    IsHavokFit (1 : Matrix (Unit ⊕ Unit) (Unit ⊕ Unit) ℝ) ((1 : Matrix (Unit ⊕ Unit) (Unit ⊕ Unit) ℝ) * (fromCols (fun _ _ => -1) (fun _ _ => 2) : Matrix Unit (Unit ⊕ Unit) ℝ)ᵀ)
      (fun _ _ => -1) (fun _ _ => 2) := by
  refine ⟨by simp, ?_⟩
  unfold IsHavokFit
  rw [Lin.isLstsqM_iff, Matrix.mul_assoc]

end Havok

/-- **C179** is violated: `fit_predict` never returns a time series, for all matrices, every rank and every number of samples of the forcing. -/
theorem C179_predict_violated {α : Type} (A B : Shape α) (r N : Nat) (e : Evolve α) : havokPredict A B r N ≠ .ok e := by
  unfold havokPredict
  split
  · simp
  · rename_i s u h
    have hs : s.controlled = true := by
      unfold setupMatrix at h
      split at h
      · cases h
      · split at h
        · cases h
        · dsimp only at h
          rw [if_pos rfl] at h
          exact (congrArg Sys.controlled (Prod.ext_iff.1 h).1).symm
    unfold evolveCheck
    split
    · simp
    · dsimp only
      split
      · simp
      · rename_i a ha p nIc hic
        have hn : nIc = 1 := by
          unfold checkIc at hic
          dsimp only at hic
          split at hic
          · cases hic
          · cases hic; rfl
        subst hn
        simp only [checkTimes, List.length_cons, List.length_nil, List.headD_cons, hs, if_true, checkControlInput, checkControl3]
        by_cases hN : N = 1
        · subst hN
          cases shapeOf s.control <;> simp
        · simp [hN]

end Verif.Edmd
