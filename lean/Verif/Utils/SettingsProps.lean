import Verif.Utils.Settings
import Verif.Utils.ParamsProps

/-!
# C205: which settings are accepted, and what they stand for

Specification: `Setting.integer?` and `Setting.number?` give the number a Python object stands for, `PyInt` says that it is an
integer of Python itself.
-/

namespace Verif.Utils

/-- The integer an object stands for, of Python (with `True` for one) or numpy. -/
def Setting.integer? : Setting → Option Int
  | .bool b => some (if b then 1 else 0)
  | .int z => some z
  | .npInt z => some z
  | _ => Option.none

/-- The number an object stands for. -/
def Setting.number? : Setting → Option Fl
  | .bool b => some (.fin (if b then 1 else 0))
  | .int z => some (.fin z)
  | .npInt z => some (.fin z)
  | .float x => some x
  | .float64 x => some x
  | .float32 x => some x
  | _ => Option.none

/-- An integer of Python: an `int`, or a `bool` (which is an `int`). -/
def PyInt (s : Setting) (z : Int) : Prop := s = .int z ∨ (s = .bool true ∧ z = 1) ∨ (s = .bool false ∧ z = 0)

/-- A float of Python; `numpy.float64` is one. -/
def PyFloat (s : Setting) (x : Fl) : Prop := s = .float x ∨ s = .float64 x

/-! ## Helper lemmas -/

theorem fl_lt_fin (q r : ℚ) : (Fl.fin q).lt (.fin r) = true ↔ q < r := by simp [Fl.lt]

theorem fl_le_fin (q r : ℚ) : (Fl.fin q).le (.fin r) = true ↔ q ≤ r := by
  simp only [Fl.le, Bool.or_eq_true, fl_lt_fin, le_iff_lt_or_eq]
  simp

/-- Comparisons of `check_scalar` for a lower bound that belongs to the range. -/
theorem not_lt_fin (x : Fl) (l : ℚ) : x.lt (.fin l) = false ↔ x = .nan ∨ x = .posInf ∨ ∃ q, x = .fin q ∧ l ≤ q := by
  cases x <;> simp [Fl.lt]

theorem not_le_fin (x : Fl) (l : ℚ) : x.le (.fin l) = false ↔ x = .nan ∨ x = .posInf ∨ ∃ q, x = .fin q ∧ l < q := by
  cases x with
  | fin q => rw [Bool.eq_false_iff, ne_eq, fl_le_fin]; simp
  | _ => simp [Fl.lt, Fl.le]

theorem not_gt_fin (x : Fl) (h : ℚ) : (Fl.fin h).lt x = false ↔ x = .nan ∨ x = .negInf ∨ ∃ q, x = .fin q ∧ q ≤ h := by
  cases x <;> simp [Fl.lt]

/-- When `check_scalar` accepts. -/
theorem checkScalar_ok (kinds : List Kind) (lo hi : Option ℚ) (strictLow : Bool) (s : Setting) :
    checkScalar kinds lo hi strictLow s = .ok () ↔ (∃ k ∈ kinds, s.isA k = true) ∧
      (∀ l ∈ lo, (if strictLow then s.toFl.le (.fin l) else s.toFl.lt (.fin l)) = false) ∧ ∀ h ∈ hi, (Fl.fin h).lt s.toFl = false := by
  unfold checkScalar
  cases strictLow <;> simp only [if_true, Bool.false_eq_true, if_false]
  all_goals
    by_cases h1 : kinds.any s.isA = true
    · rw [if_neg (not_not.2 h1)]
      have h1' : ∃ k ∈ kinds, s.isA k = true := by simpa using h1
      simp only [h1', true_and]
      cases lo with
      | none => cases hi with
        | none => simp
        | some h => cases hb : (Fl.fin h).lt s.toFl <;> simp [hb]
      | some l =>
        first
        | cases hl : s.toFl.lt (.fin l) with
          | true => simp [hl]
          | false =>
            cases hi with
            | none => simp [hl]
            | some h => cases hb : (Fl.fin h).lt s.toFl <;> simp [hl, hb]
        | cases hl : s.toFl.le (.fin l) with
          | true => simp [hl]
          | false =>
            cases hi with
            | none => simp [hl]
            | some h => cases hb : (Fl.fin h).lt s.toFl <;> simp [hl, hb]
    · rw [if_pos h1]
      have h1' : ¬ ∃ k ∈ kinds, s.isA k = true := by simpa using h1
      constructor
      · intro h; cases h
      · intro h; exact absurd h.1 h1'

/-- The check of an integer of Python with a lower and an upper bound. -/
theorem checkScalar_pyInt (lo hi : Option Int) (s : Setting) : checkScalar [.int] (lo.map (↑)) (hi.map (↑)) false s = .ok () ↔
    ∃ z, PyInt s z ∧ (∀ l ∈ lo, l ≤ z) ∧ ∀ h ∈ hi, z ≤ h := by
  rw [checkScalar_ok]
  have key : ∀ z : Int, ((∀ l ∈ lo.map ((↑) : Int → ℚ), (Fl.fin z).lt (.fin l) = false) ∧ ∀ h ∈ hi.map ((↑) : Int → ℚ), (Fl.fin h).lt (.fin z) = false) ↔
      (∀ l ∈ lo, l ≤ z) ∧ ∀ h ∈ hi, z ≤ h := by
    intro z
    cases lo <;> cases hi <;> simp [Fl.lt]
  cases s with
  | int z => simpa [Setting.isA, Setting.toFl, PyInt] using key z
  | bool b =>
    cases b
    · simpa [Setting.isA, Setting.toFl, PyInt] using key 0
    · simpa [Setting.isA, Setting.toFl, PyInt] using key 1
  | _ => simp [Setting.isA, PyInt]

/-! ## The property -/

/-- **C205** (diffusion maps): `DiffusionMaps.fit` accepts the settings if and only if `n_eigenpairs` is an integer of at least one, `time_exponent` is
a number and `alpha` is a number between zero and one, or `nan`. -/
theorem C205_diffusion_partial (n t a : Setting) : dmapSettings n t a = .ok () ↔
    (∃ z, n.integer? = some z ∧ 1 ≤ z) ∧ (∃ x, t.number? = some x) ∧
    (a.number? = some .nan ∨ ∃ q, a.number? = some (.fin q) ∧ 0 ≤ q ∧ q ≤ 1) := by
  have hn : checkScalar [.int, .npInteger] (some 1) none false n = .ok () ↔ ∃ z, n.integer? = some z ∧ 1 ≤ z := by
    rw [checkScalar_ok]
    cases n with
    | bool b => cases b <;> simp [Setting.isA, Setting.toFl, Setting.integer?, Fl.lt]
    | int z => 
      have hz : (z : ℚ) < 1 ↔ z < 1 := by exact_mod_cast Iff.rfl
      simp [Setting.isA, Setting.toFl, Setting.integer?, Fl.lt]
      exact_mod_cast Iff.rfl
    | npInt z => 
      have hz : (z : ℚ) < 1 ↔ z < 1 := by exact_mod_cast Iff.rfl
      simp [Setting.isA, Setting.toFl, Setting.integer?, Fl.lt]
      exact_mod_cast Iff.rfl
    | _ => simp [Setting.isA, Setting.integer?]
  have ht : checkScalar [.float, .int, .npFloating, .npInteger] none none false t = .ok () ↔ ∃ x, t.number? = some x := by
    rw [checkScalar_ok]
    cases t <;> simp [Setting.isA, Setting.number?]
  have ha : checkScalar [.float, .npFloating, .int, .npInteger] (some 0) (some 1) false a = .ok () ↔
      (a.number? = some .nan ∨ ∃ q, a.number? = some (.fin q) ∧ 0 ≤ q ∧ q ≤ 1) := by
    have key : ∀ x : Fl, (x.lt (.fin 0) = false ∧ (Fl.fin 1).lt x = false) ↔ (x = .nan ∨ ∃ q, x = .fin q ∧ 0 ≤ q ∧ q ≤ 1) := by
      intro x
      cases x <;> simp [Fl.lt]
    rw [checkScalar_ok]
    cases a with
    | none => simp [Setting.isA, Setting.number?]
    | other => simp [Setting.isA, Setting.number?]
    | array r => simp [Setting.isA, Setting.number?]
    | bool b => simpa [Setting.isA, Setting.number?, Setting.toFl] using key (.fin (if b then 1 else 0))
    | int z => simpa [Setting.isA, Setting.number?, Setting.toFl] using key (.fin z)
    | npInt z => simpa [Setting.isA, Setting.number?, Setting.toFl] using key (.fin z)
    | float x => simpa [Setting.isA, Setting.number?, Setting.toFl] using key x
    | float64 x => simpa [Setting.isA, Setting.number?, Setting.toFl] using key x
    | float32 x => simpa [Setting.isA, Setting.number?, Setting.toFl] using key x
  unfold dmapSettings
  cases h1 : checkScalar [.int, .npInteger] (some 1) none false n with
  | error e => rw [h1] at hn; simp only [← hn]; simp
  | ok u =>
    rw [h1] at hn
    cases h2 : checkScalar [.float, .int, .npFloating, .npInteger] none none false t with
    | error e => rw [h2] at ht; simp only [← ht]; simp
    | ok v =>
      rw [h2] at ht
      simp only [← hn, ← ht, ← ha]
      simp

/-- The settings of a usual call. -/
example : dmapSettings (.int 10) (.int 0) (.float (.fin (1/2))) = .ok () := by decide +kernel

/-- **C205** (violated): `alpha = nan`, which is no number between zero and one, is accepted — with any accepted other settings. -/
theorem C205_diffusion_violated (n t a : Setting) (h : dmapSettings n t a = .ok ()) : dmapSettings n t (.float .nan) = .ok () := by
  rw [C205_diffusion_partial] at h ⊢
  exact ⟨h.1, h.2.1, .inl rfl⟩

/-- **C205** (landmarks): `Roseland.fit` on `n` samples uses `k` landmarks if and only if `k` is at least two and: `k` is the number of rows of the given
array, or the given Python integer, which is at most `n`, or the rounded down part of the samples that the given Python float in `(0, 1]`
stands for. -/
theorem C205_landmarks (n : Nat) (s : Setting) (k : Int) : roselandLandmarks n s = .ok k ↔
    2 ≤ k ∧ ((∃ r : Nat, s = .array r ∧ k = r) ∨ (s = .int k ∧ k ≤ n) ∨ ∃ q : ℚ, PyFloat s (.fin q) ∧ 0 < q ∧ q ≤ 1 ∧ k = ⌊(n : ℚ) * q⌋) := by
  have hfl : ∀ (s : Setting) (x : Fl), s.isA .float = true → s.toFl = x → (∀ r, s ≠ .array r) → (∀ q, PyFloat s (.fin q) ↔ x = .fin q) →
      (∀ z, s ≠ .int z) → (roselandLandmarks n s = .ok k ↔
      2 ≤ k ∧ ((∃ r : Nat, s = .array r ∧ k = r) ∨ (s = .int k ∧ k ≤ n) ∨ ∃ q : ℚ, PyFloat s (.fin q) ∧ 0 < q ∧ q ≤ 1 ∧ k = ⌊(n : ℚ) * q⌋)) := by
    intro s x hs hx hr hp hi
    have hland : landmarksSetting n s = checkScalar [.float] (some 0) (some 1) true s := by
      unfold landmarksSetting; rw [if_pos hs]
    have hok : checkScalar [.float] (some 0) (some 1) true s = .ok () ↔ x = .nan ∨ ∃ q, x = .fin q ∧ 0 < q ∧ q ≤ 1 := by
      rw [checkScalar_ok]
      simp only [List.mem_singleton, exists_eq_left, hs, hx, true_and, Option.mem_def, Option.some.injEq, forall_eq', if_true,
        not_le_fin, not_gt_fin]
      cases x <;> simp
    have hdr : drawnLandmarks n s = enoughLandmarks (x.scale n).toInt := by
      unfold drawnLandmarks; rw [if_pos hs, hx]
    have hro : roselandLandmarks n s = match checkScalar [.float] (some 0) (some 1) true s with
        | .error e => .error e
        | .ok _ => drawnLandmarks n s := by
      unfold roselandLandmarks
      rw [hland]
      cases s <;> rfl
    rw [hro]
    cases hc : checkScalar [.float] (some 0) (some 1) true s with
    | error e =>
      rw [hc] at hok
      constructor
      · intro h; cases h
      · rintro ⟨_, ⟨r, h, _⟩ | ⟨h, _⟩ | ⟨q, h, hq⟩⟩
        · exact absurd h (hr r)
        · exact absurd h (hi k)
        · exact (nomatch hok.2 (.inr ⟨q, (hp q).1 h, hq.1, hq.2.1⟩))
    | ok u =>
      rw [hc] at hok
      dsimp only
      rw [hdr]
      rcases hok.1 rfl with h | ⟨q, h, hq0, hq1⟩
      · subst h
        constructor
        · intro h; cases h
        · rintro ⟨_, ⟨r, h, _⟩ | ⟨h, _⟩ | ⟨q, h, hq⟩⟩
          · exact absurd h (hr r)
          · exact absurd h (hi k)
          · exact (nomatch (hp q).1 h)
      · subst h
        have hnn : 0 ≤ (n : ℚ) * q := by positivity
        simp only [Fl.scale, Fl.toInt, if_pos hnn, enoughLandmarks]
        constructor
        · intro h
          split at h
          · cases h
          · cases h
            exact ⟨by omega, .inr (.inr ⟨q, (hp q).2 rfl, hq0, hq1, rfl⟩)⟩
        · rintro ⟨h2, ⟨r, h, _⟩ | ⟨h, _⟩ | ⟨q', h, hq, hq', rfl⟩⟩
          · exact absurd h (hr r)
          · exact absurd h (hi k)
          · cases (hp q').1 h
            rw [if_neg (by omega)]
  cases s with
  | float x => exact hfl _ x rfl rfl (by simp) (by intro q; simp [PyFloat]) (by simp)
  | float64 x => exact hfl _ x rfl rfl (by simp) (by intro q; simp [PyFloat]) (by simp)
  | float32 x => simp [roselandLandmarks, landmarksSetting, Setting.isA, PyFloat]
  | npInt z => simp [roselandLandmarks, landmarksSetting, Setting.isA, PyFloat]
  | none => simp [roselandLandmarks, landmarksSetting, Setting.isA, PyFloat]
  | other => simp [roselandLandmarks, landmarksSetting, Setting.isA, PyFloat]
  | array r =>
    have : roselandLandmarks n (.array r) = if r < 2 then .error .value else .ok (r : Int) := rfl
    rw [this]
    constructor
    · intro h
      split at h
      · cases h
      · cases h; exact ⟨by omega, .inl ⟨r, rfl, rfl⟩⟩
    · rintro ⟨h2, ⟨r', h, rfl⟩ | ⟨h, _⟩ | ⟨q, h, _⟩⟩
      · cases h; rw [if_neg (by omega)]
      · cases h
      · rcases h with h | h <;> cases h
  | bool b =>
    constructor
    · intro h
      exfalso
      unfold roselandLandmarks at h
      cases hl : landmarksSetting n (.bool b) with
      | error e => rw [hl] at h; cases h
      | ok u =>
        rw [hl] at h
        cases b <;> simp [drawnLandmarks, enoughLandmarks, Setting.isA, Setting.toFl, Fl.toInt] at h
    · rintro ⟨_, ⟨r, h, _⟩ | ⟨h, _⟩ | ⟨q, h | h, hq⟩⟩ <;> cases h
  | int z =>
    have hland : landmarksSetting n (.int z) = checkScalar [.int] (some 1) (some n) false (.int z) := rfl
    have hok : checkScalar [.int] (some 1) (some (n : ℚ)) false (.int z) = .ok () ↔ 1 ≤ z ∧ z ≤ n := by
      have := checkScalar_pyInt (some 1) (some n) (.int z)
      simpa [PyInt] using this
    have hdr : drawnLandmarks n (.int z) = if z ≤ 1 then .error .value else .ok z := by
      unfold drawnLandmarks
      simp [Setting.isA, Setting.toFl, Fl.toInt, Int.floor_intCast, Int.ceil_intCast, enoughLandmarks]
    unfold roselandLandmarks
    rw [hland]
    cases hc : checkScalar [.int] (some 1) (some (n : ℚ)) false (.int z) with
    | error e =>
      rw [hc] at hok
      constructor
      · intro h; cases h
      · rintro ⟨h2, ⟨r, h, _⟩ | ⟨h, hk⟩ | ⟨q, h | h, _⟩⟩
        · cases h
        · cases h; exact (nomatch hok.2 ⟨by omega, hk⟩)
        · cases h
        · cases h
    | ok u =>
      rw [hc] at hok
      dsimp only
      rw [hdr]
      constructor
      · intro h
        split at h
        · cases h
        · cases h; exact ⟨by omega, .inr (.inl ⟨rfl, (hok.1 rfl).2⟩)⟩
      · rintro ⟨h2, ⟨r, h, _⟩ | ⟨h, hk⟩ | ⟨q, h | h, _⟩⟩
        · cases h
        · cases h; rw [if_neg (by omega)]
        · cases h
        · cases h

/-- **C205** (landmarks): landmarks that are drawn from the samples are at most as many as the samples. -/
theorem C205_landmarks_range (n : Nat) (s : Setting) (k : Int) (h : roselandLandmarks n s = .ok k) (hs : ∀ r, s ≠ .array r) : 2 ≤ k ∧ k ≤ n := by
  obtain ⟨h2, ⟨r, h, _⟩ | ⟨_, hk⟩ | ⟨q, _, h0, h1, rfl⟩⟩ := (C205_landmarks n s k).1 h
  · exact absurd h (hs r)
  · exact ⟨h2, hk⟩
  · refine ⟨h2, ?_⟩
    have : (⌊(n : ℚ) * q⌋ : ℚ) ≤ n := (Int.floor_le _).trans (mul_le_of_le_one_right (by positivity) h1)
    exact_mod_cast this

/-- A quarter of ten samples. -/
example : roselandLandmarks 10 (.float (.fin (1/4))) = .ok 2 := by
  rw [C205_landmarks]; exact ⟨by decide, .inr (.inr ⟨1/4, .inl rfl, by norm_num, by norm_num, by norm_num⟩)⟩

/-- **C205** (violated): the same number of landmarks, given as a numpy integer or as `numpy.float32`, is refused; as numpy integer it is
accepted for the number of eigenpairs. -/
theorem C205_landmarks_violated (n : Nat) (k : Int) (h2 : 2 ≤ k) (hn : k ≤ n) (q : ℚ) :
    roselandLandmarks n (.int k) = .ok k ∧ roselandLandmarks n (.npInt k) = .error .type ∧ roselandLandmarks n (.float32 (.fin q)) = .error .type ∧
    dmapSettings (.npInt k) (.int 0) (.int 1) = .ok () := by
  refine ⟨(C205_landmarks _ _ _).2 ⟨h2, .inr (.inl ⟨rfl, hn⟩)⟩, rfl, rfl, ?_⟩
  rw [C205_diffusion_partial]
  exact ⟨⟨k, rfl, by omega⟩, ⟨_, rfl⟩, .inr ⟨_, rfl, by norm_num, by norm_num⟩⟩

/-- **C205** (rank): `DMDStandard.fit` on `d` features accepts a rank if and only if none is given, or it is a Python integer from one to `d - 1` and the
model is not to be diagonalized. -/
theorem C205_rank (d : Nat) (diag : Bool) (s : Setting) : rankSetting d diag s = .ok () ↔
    s = .none ∨ (diag = false ∧ ∃ z, PyInt s z ∧ 1 ≤ z ∧ z < d) := by
  by_cases hs : s = .none
  · simp [rankSetting, hs]
  have h1 : checkScalar [.int] (some 1) (some (d : ℚ)) false s = .ok () ↔ ∃ z, PyInt s z ∧ 1 ≤ z ∧ z ≤ d := by
    simpa using checkScalar_pyInt (some 1) (some d) s
  have h2 : checkScalar [.int] (some 1) (some ((d : ℚ) - 1)) false s = .ok () ↔ ∃ z, PyInt s z ∧ 1 ≤ z ∧ z ≤ d - 1 := by
    simpa using checkScalar_pyInt (some 1) (some ((d : Int) - 1)) s
  unfold rankSetting
  rw [if_neg hs]
  simp only [hs, false_or]
  cases hc : checkScalar [.int] (some 1) (some (d : ℚ)) false s with
  | error e =>
    rw [hc] at h1
    constructor
    · intro h; cases h
    · rintro ⟨_, z, hz, ha, hb⟩
      exact (nomatch h1.2 ⟨z, hz, ha, by omega⟩)
  | ok u =>
    dsimp only
    cases diag
    · simp only [Bool.false_eq_true, if_false, true_and]
      rw [h2]
      constructor
      · rintro ⟨z, hz, ha, hb⟩; exact ⟨z, hz, ha, by omega⟩
      · rintro ⟨z, hz, ha, hb⟩; exact ⟨z, hz, ha, by omega⟩
    · simp

/-- Rank two of three features; no rank fits a single feature. -/
example : rankSetting 3 false (.int 2) = .ok () ∧ ∀ z diag, rankSetting 1 diag (.int z) ≠ .ok () :=
  ⟨by decide +kernel, fun z diag h => by
    rcases (C205_rank 1 diag (.int z)).1 h with h | ⟨_, w, h | ⟨h, _⟩ | ⟨h, _⟩, h1, h2⟩
    · cases h
    · cases h; push_cast at h2; omega
    · cases h
    · cases h⟩

/-- **C205** (streaming DMD): the settings are accepted if and only if the largest rank is absent or a Python integer of at least one, the number of
Gram-Schmidt steps is a Python integer of at least one, and the tolerance is a Python float that is `nan`, infinite or not negative. -/
theorem C205_streaming_partial (r g t : Setting) : streamingSettings r g t = .ok () ↔
    (r = .none ∨ ∃ z, PyInt r z ∧ 1 ≤ z) ∧ (∃ z, PyInt g z ∧ 1 ≤ z) ∧ (PyFloat t .nan ∨ PyFloat t .posInf ∨ ∃ q, PyFloat t (.fin q) ∧ 0 ≤ q) := by
  have hi : ∀ s, checkScalar [.int] (some 1) none false s = .ok () ↔ ∃ z, PyInt s z ∧ 1 ≤ z := by
    intro s
    simpa using checkScalar_pyInt (some 1) none s
  have hr : (if r = .none then .ok () else checkScalar [.int] (some 1) none false r : Except SetErr Unit) = .ok () ↔ (r = .none ∨ ∃ z, PyInt r z ∧ 1 ≤ z) := by
    by_cases h : r = .none
    · simp [h]
    · rw [if_neg h, hi]; simp [h]
  have ht : checkScalar [.float] (some 0) none false t = .ok () ↔ (PyFloat t .nan ∨ PyFloat t .posInf ∨ ∃ q, PyFloat t (.fin q) ∧ 0 ≤ q) := by
    rw [checkScalar_ok]
    cases t <;> simp [Setting.isA, PyFloat, Setting.toFl, not_lt_fin]
  unfold streamingSettings
  cases h1 : (if r = .none then .ok () else checkScalar [.int] (some 1) none false r : Except SetErr Unit) with
  | error e => rw [h1] at hr; simp only [← hr]; simp
  | ok u =>
    rw [h1] at hr
    have hg := hi g
    cases h2 : checkScalar [.int] (some 1) none false g with
    | error e => rw [h2] at hg; simp only [← hg]; simp
    | ok v =>
      rw [h2] at hg
      simp only [← hr, ← hg, ← ht]
      simp

/-- The defaults. -/
example : streamingSettings .none (.int 5) (.float (.fin (1 / 10 ^ 10))) = .ok () := by decide +kernel

/-- **C205** (violated): the tolerance zero is refused when it is written as integer, and accepted as float; the tolerance `nan` is accepted. -/
theorem C205_streaming_violated (r g t : Setting) (h : streamingSettings r g t = .ok ()) :
    streamingSettings r g (.float (.fin 0)) = .ok () ∧ streamingSettings r g (.int 0) ≠ .ok () ∧ streamingSettings r g (.float .nan) = .ok () := by
  rw [C205_streaming_partial] at h
  refine ⟨(C205_streaming_partial _ _ _).2 ⟨h.1, h.2.1, .inr (.inr ⟨0, .inl rfl, le_rfl⟩)⟩, fun h' => ?_, (C205_streaming_partial _ _ _).2 ⟨h.1, h.2.1, .inl (.inl rfl)⟩⟩
  have := ((C205_streaming_partial _ _ _).1 h').2.2
  simp [PyFloat] at this

/-- **C205** (online DMD): the weighting is accepted if and only if it is a Python float in `(0, 1]` or `nan`, or the Python integer one. -/
theorem C205_online_partial (s : Setting) : onlineSettings s = .ok () ↔
    PyInt s 1 ∨ PyFloat s .nan ∨ ∃ q, PyFloat s (.fin q) ∧ 0 < q ∧ q ≤ 1 := by
  unfold onlineSettings
  rw [checkScalar_ok]
  have key : ∀ x : Fl, (x.le (.fin 0) = false ∧ (Fl.fin 1).lt x = false) ↔ (x = .nan ∨ ∃ q, x = .fin q ∧ 0 < q ∧ q ≤ 1) := by
    intro x
    rw [not_le_fin, not_gt_fin]
    cases x <;> simp
  cases s with
  | float x => simpa [Setting.isA, PyFloat, PyInt, Setting.toFl] using key x
  | float64 x => simpa [Setting.isA, PyFloat, PyInt, Setting.toFl] using key x
  | bool b => cases b <;> simp [Setting.isA, PyFloat, PyInt, Setting.toFl, not_le_fin, not_gt_fin]
  | int z =>
    have hk := key (.fin z)
    simp only [reduceCtorEq, false_or, Fl.fin.injEq, exists_eq_left'] at hk
    have h1 : (0 : ℚ) < z ∧ (z : ℚ) ≤ 1 ↔ z = 1 := by
      constructor
      · rintro ⟨h1, h2⟩
        have h3 : 0 < z := by exact_mod_cast h1
        have h4 : z ≤ 1 := by exact_mod_cast h2
        omega
      · rintro rfl; norm_num
    rw [h1] at hk
    simpa [Setting.isA, PyFloat, PyInt, Setting.toFl] using hk
  | _ => simp [Setting.isA, PyFloat, PyInt]

/-- A weighting. -/
example : onlineSettings (.float (.fin (9/10))) = .ok () ∧ onlineSettings (.int 0) = .error .value := by decide +kernel

/-- **C205** (violated): `weighting = nan` is accepted, a `numpy.float32` between zero and one is not. -/
theorem C205_online_violated (q : ℚ) : onlineSettings (.float .nan) = .ok () ∧ onlineSettings (.float32 (.fin q)) = .error .type :=
  ⟨(C205_online_partial _).2 (.inr (.inl (.inl rfl))), rfl⟩

/-! ### Finite differences -/

theorem lookup_append_some {V : Type} (d e : List (String × V)) (k : String) (v : V) (h : d.lookup k = some v) : (d ++ e).lookup k = some v := by
  induction d with
  | nil => cases h
  | cons x d ih =>
    rw [List.cons_append, List.lookup_cons] at *
    split at h
    · exact h
    · exact ih h

theorem lookup_append_none {V : Type} (d e : List (String × V)) (k : String) (h : d.lookup k = none) : (d ++ e).lookup k = e.lookup k := by
  induction d with
  | nil => rfl
  | cons x d ih =>
    rw [List.cons_append, List.lookup_cons] at *
    split at h
    · cases h
    · exact ih h

theorem lookup_setDefault (d : List (String × Atom)) (k : String) (v : Atom) (n : String) :
    (setDefault d k v).lookup n = if n = k then some ((d.lookup k).getD v) else d.lookup n := by
  unfold setDefault
  cases hk : d.lookup k with
  | some w =>
    simp only [Option.isSome_some, if_true, Option.getD_some]
    by_cases h : n = k
    · rw [if_pos h, h, hk]
    · rw [if_neg h]
  | none =>
    simp only [Option.isSome_none, Bool.false_eq_true, if_false, Option.getD_none]
    by_cases h : n = k
    · rw [if_pos h, h, lookup_append_none _ _ _ hk]; simp [List.lookup]
    · rw [if_neg h]
      cases hn : d.lookup n with
      | some w => exact lookup_append_some _ _ _ _ hn
      | none =>
        rw [lookup_append_none _ _ _ hn, List.lookup_cons]
        have : (n == k) = false := by simpa using h
        rw [this]; rfl

/-- **C205** (finite differences): the keywords for the time derivative in `gDMDFull` are refused if and only if they ask for another derivative than the
first.  Otherwise every given keyword is passed on as it is, and the first derivative of accuracy two without shift of the index is the default. -/
theorem C205_finite_differences (kw : Option (List (String × Atom))) :
    ((∃ e, fdKwargs kw = .error e) ↔ ∃ v, (kw.getD []).lookup "diff_order" = some v ∧ v ≠ .int 1 ∧ v ≠ .num 1 ∧ v ≠ .bool true) ∧
    ∀ r, fdKwargs kw = .ok r → (∀ n v, (kw.getD []).lookup n = some v → r.lookup n = some v) ∧
      (∀ n, (kw.getD []).lookup n = none → r.lookup n =
        if n = "diff_order" then some (.int 1) else if n = "accuracy" then some (.int 2) else if n = "shift_index" then some (.bool false) else none) := by
  have hone : ∀ v : Atom, v.isOne = false ↔ v ≠ .int 1 ∧ v ≠ .num 1 ∧ v ≠ .bool true := by
    intro v
    cases v <;> simp [Atom.isOne]
  unfold fdKwargs
  constructor
  · cases h : (kw.getD []).lookup "diff_order" with
    | none => simp [h]
    | some v => cases ho : v.isOne <;> simp [h, ho, ← hone]
  · intro r hr
    dsimp only at hr
    split at hr
    · cases hr
    · cases hr
      constructor
      · intro n v hv
        simp only [lookup_setDefault]
        by_cases h1 : n = "shift_index"
        · subst h1; simp [hv]
        · by_cases h2 : n = "accuracy"
          · subst h2; simp [hv]
          · by_cases h3 : n = "diff_order"
            · subst h3; simp [hv]
            · simp [h1, h2, h3, hv]
      · intro n hv
        simp only [lookup_setDefault]
        by_cases h1 : n = "shift_index"
        · subst h1; simp [hv]
        · by_cases h2 : n = "accuracy"
          · subst h2; simp [hv]
          · by_cases h3 : n = "diff_order"
            · subst h3; simp [hv]
            · simp [h1, h2, h3, hv]

/-- A higher accuracy. -/
example : fdKwargs (some [("accuracy", .int 4)]) = .ok [("accuracy", .int 4), ("diff_order", .int 1), ("shift_index", .bool false)] ∧
    fdKwargs (some [("diff_order", .int 2)]) = .error .value := by decide +kernel

/-! ### The operators -/

theorem lookup_filter_other {V : Type} (g : List (String × V)) (p : String × V → Bool) (n : String) (hp : ∀ x ∈ g, x.1 = n → p x = true) :
    (g.filter p).lookup n = g.lookup n := by
  induction g with
  | nil => rfl
  | cons x g ih =>
    have ih' := ih (fun y hy => hp y (List.mem_cons_of_mem _ hy))
    by_cases hx : n = x.1
    · rw [List.filter_cons_of_pos (hp x List.mem_cons_self hx.symm), List.lookup_cons, List.lookup_cons, beq_iff_eq.2 hx]
    · rw [List.lookup_cons, beq_eq_false_iff_ne.2 hx, List.filter_cons]
      split
      · rw [List.lookup_cons, beq_eq_false_iff_ne.2 hx]; exact ih'
      · exact ih'

/-- What the class methods return. -/
theorem make_spec (op : Operator) (g : List (String × Atom)) :
    ((∃ a, op.make g = .ok a) ↔ ∀ x ∈ g, x.1 = "kernel" ∨ x.1 = "n_eigenpairs" ∨ x.1 = "time_exponent" ∨ x.1 = "symmetrize_kernel") ∧
    ∀ a, op.make g = .ok a → a.lookup "is_stochastic" = some (.atom (.bool true)) ∧ a.lookup "alpha" = some (.atom (.num op.alpha)) ∧
      a.lookup "n_eigenpairs" = some (.atom ((g.lookup "n_eigenpairs").getD (.int 10))) ∧
      a.lookup "time_exponent" = some (.atom ((g.lookup "time_exponent").getD (.int 0))) ∧
      a.lookup "symmetrize_kernel" = some (.atom ((g.lookup "symmetrize_kernel").getD (.bool true))) ∧
      a.lookup "kernel" = some (.atom ((g.lookup "kernel").getD (.obj op.kernelRef))) := by
  have hp : isPlain diffusionMaps = true := plainEstimators_plain _ (by simp [plainEstimators])
  set rest := g.filter (fun g => decide (g.1 ≠ "kernel" ∧ g.1 ≠ "n_eigenpairs")) with hrest
  set full : List (String × Atom) := [("kernel", (g.lookup "kernel").getD (.obj op.kernelRef)),
    ("n_eigenpairs", (g.lookup "n_eigenpairs").getD (.int 10)), ("is_stochastic", .bool true), ("alpha", .num op.alpha)] ++ rest with hfull
  have hmake : op.make g = if rest.any (fun g => decide (g.1 = "is_stochastic" ∨ g.1 = "alpha")) = true then .error .type else construct diffusionMaps full := rfl
  obtain ⟨h1, h2⟩ := construct_plain hp full
  have hacc : (∀ x ∈ full, x.1 ∈ diffusionMaps.names) ↔ ∀ x ∈ rest, x.1 ∈ diffusionMaps.names := by
    rw [hfull]; simp [diffusionMaps, Cls.names]
  have hsig : ∀ s ∈ diffusionMaps.sig, s.2 = none → s.1 ∈ full.map (·.1) := by simp [diffusionMaps]
  rw [hmake]
  by_cases hany : rest.any (fun g => decide (g.1 = "is_stochastic" ∨ g.1 = "alpha")) = true
  · rw [if_pos hany]
    refine ⟨⟨fun ⟨a, h⟩ => (nomatch h), fun h => ?_⟩, fun a h => by cases h⟩
    obtain ⟨x, hx, hx'⟩ := List.any_eq_true.1 hany
    have hx' := of_decide_eq_true hx'
    have := h x (List.mem_of_mem_filter hx)
    rcases hx' with e | e <;> rw [e] at this <;> simp at this
  · rw [if_neg hany]
    have hno : ∀ x ∈ rest, ¬ (x.1 = "is_stochastic" ∨ x.1 = "alpha") := fun x hx h => hany (List.any_eq_true.2 ⟨x, hx, decide_eq_true h⟩)
    constructor
    · rw [h1, hacc]
      constructor
      · rintro ⟨h, -⟩ x hx
        by_cases hk : x.1 = "kernel" ∨ x.1 = "n_eigenpairs"
        · tauto
        · have hxr : x ∈ rest := List.mem_filter.2 ⟨hx, decide_eq_true (not_or.1 hk)⟩
          have hn := h x hxr
          have := hno x hxr
          simp only [diffusionMaps, Cls.names, List.map_cons, List.map_nil, List.mem_cons, List.not_mem_nil, or_false] at hn
          tauto
      · intro h
        refine ⟨fun x hx => ?_, hsig⟩
        have := h x (List.mem_of_mem_filter hx)
        simp only [diffusionMaps, Cls.names, List.map_cons, List.map_nil, List.mem_cons, List.not_mem_nil, or_false]
        tauto
    · intro a ha
      have hold := h2 a ha
      have hte : rest.lookup "time_exponent" = g.lookup "time_exponent" := lookup_filter_other _ _ _ (fun x _ e => by rw [e]; decide)
      have hsk : rest.lookup "symmetrize_kernel" = g.lookup "symmetrize_kernel" := lookup_filter_other _ _ _ (fun x _ e => by rw [e]; decide)
      have hmem : ∀ n ∈ diffusionMaps.names, a.lookup n = some (.atom (argOf diffusionMaps full n)) := fun n hn => by rw [hold n, if_pos hn]
      refine ⟨?_, ?_, ?_, ?_, ?_, ?_⟩
      · rw [hmem _ (by decide)]; rfl
      · rw [hmem _ (by decide)]; rfl
      · rw [hmem _ (by decide)]; rfl
      · rw [hmem _ (by decide)]
        have : full.lookup "time_exponent" = g.lookup "time_exponent" := by rw [← hte]; rfl
        unfold argOf; rw [this]
        cases g.lookup "time_exponent" <;> rfl
      · rw [hmem _ (by decide)]
        have : full.lookup "symmetrize_kernel" = g.lookup "symmetrize_kernel" := by rw [← hsk]; rfl
        unfold argOf; rw [this]
        cases g.lookup "symmetrize_kernel" <;> rfl
      · rw [hmem _ (by decide)]; rfl

/-- **C205** (operators): the constructors for the Laplace-Beltrami, Fokker-Planck and graph Laplace operator accept a call with keywords if and only if they
are `kernel`, `n_eigenpairs`, `time_exponent` or `symmetrize_kernel`.  The model then is stochastic, `alpha` is 1, 1/2 or 0, and the other parameters
are as given, or ten eigenpairs, time exponent zero, a symmetrized kernel and some kernel object. -/
theorem C205_operators (op : Operator) (g : List (String × Atom)) :
    ((∃ a, op.make g = .ok a) ↔ ∀ x ∈ g, x.1 = "kernel" ∨ x.1 = "n_eigenpairs" ∨ x.1 = "time_exponent" ∨ x.1 = "symmetrize_kernel") ∧
    ∀ a, op.make g = .ok a → a.lookup "is_stochastic" = some (.atom (.bool true)) ∧
      a.lookup "alpha" = some (.atom (.num (match op with | .laplaceBeltrami => 1 | .fokkerPlanck => 1 / 2 | .graphLaplacian => 0))) ∧
      a.lookup "n_eigenpairs" = some (.atom ((g.lookup "n_eigenpairs").getD (.int 10))) ∧
      a.lookup "time_exponent" = some (.atom ((g.lookup "time_exponent").getD (.int 0))) ∧
      a.lookup "symmetrize_kernel" = some (.atom ((g.lookup "symmetrize_kernel").getD (.bool true))) ∧
      (∀ v, g.lookup "kernel" = some v → a.lookup "kernel" = some (.atom v)) ∧
      (g.lookup "kernel" = none → ∃ r, a.lookup "kernel" = some (.atom (.obj r))) := by
  obtain ⟨h1, h2⟩ := make_spec op g
  refine ⟨h1, fun a ha => ?_⟩
  obtain ⟨k1, k2, k3, k4, k5, k6⟩ := h2 a ha
  exact ⟨k1, by rw [k2]; cases op <;> rfl, k3, k4, k5, fun v hv => by rw [k6, hv]; rfl, fun hv => ⟨_, by rw [k6, hv]; rfl⟩⟩

/-- `DiffusionMaps.fokker_planck(n_eigenpairs=5)`; `alpha` cannot be given. -/
example : (∃ a, Operator.fokkerPlanck.make [("n_eigenpairs", .int 5)] = .ok a) ∧ Operator.fokkerPlanck.make [("alpha", .int 1)] = .error .type :=
  ⟨((C205_operators _ _).1).2 (by simp), rfl⟩

/-- **C205** (violated): the default kernel belongs to all models made by the same constructor: `set_params(kernel__epsilon=e)` on one model changes
the bandwidth that every other one uses — whereas models of another constructor, or with a kernel of their own, keep theirs. -/
theorem C205_shared_violated (op : Operator) (g g' : List (String × Atom)) (hk : g.lookup "kernel" = none) (hk' : g'.lookup "kernel" = none)
    (a : Attrs) (ha : op.make g = .ok a) (e : ℚ) (heap : Nat → ℚ) :
    ∃ heap', setKernelEpsilon a e heap = .ok heap' ∧ (∀ b, op.make g' = .ok b → kernelEpsilon b heap' = some e) ∧
      ∀ op' b, op' ≠ op → Operator.make op' g' = .ok b → kernelEpsilon b heap' = kernelEpsilon b heap := by
  have h := ((make_spec op g).2 a ha).2.2.2.2.2
  rw [hk] at h
  refine ⟨fun i => if i = op.kernelRef then e else heap i, ?_, fun b hb => ?_, fun op' b hne hb => ?_⟩
  · unfold setKernelEpsilon; rw [h]; rfl
  · have h' := ((make_spec op g').2 b hb).2.2.2.2.2
    rw [hk'] at h'
    unfold kernelEpsilon; rw [h']; simp
  · have h' := ((make_spec op' g').2 b hb).2.2.2.2.2
    rw [hk'] at h'
    have hr : op'.kernelRef ≠ op.kernelRef := by cases op <;> cases op' <;> simp_all [Operator.kernelRef]
    unfold kernelEpsilon; rw [h']; simp [hr]

/-- Two models with the default kernel. -/
example : ∃ a b heap', Operator.laplaceBeltrami.make [] = .ok a ∧ Operator.laplaceBeltrami.make [("n_eigenpairs", .int 3)] = .ok b ∧
    kernelEpsilon b (fun _ => 1) = some 1 ∧ setKernelEpsilon a 2 (fun _ => 1) = .ok heap' ∧ kernelEpsilon b heap' = some 2 := by
  obtain ⟨a, ha⟩ := ((C205_operators .laplaceBeltrami []).1).2 (by simp)
  obtain ⟨b, hb⟩ := ((C205_operators .laplaceBeltrami [("n_eigenpairs", .int 3)]).1).2 (by simp)
  obtain ⟨h', h1, h2, -⟩ := C205_shared_violated .laplaceBeltrami [] [("n_eigenpairs", .int 3)] rfl rfl a ha 2 (fun _ => 1)
  refine ⟨a, b, h', ha, hb, ?_, h1, h2 b hb⟩
  have := ((make_spec _ _).2 b hb).2.2.2.2.2
  unfold kernelEpsilon; rw [this]; rfl

end Verif.Utils
