import Verif.Utils.CyclePredict
/-!
# Properties of the prediction with the limit cycle for given time values (C213)
-/

namespace Verif.Utils

/-! ## Specification -/

/-- Rounding to 10 decimals: the nearest multiple of `1e-10`. -/
def Rounds (rnd : ℝ → ℤ) : Prop := ∀ y, |(rnd y : ℝ) * (1 / 10 ^ 10) - y| ≤ 1 / 2 * (1 / 10 ^ 10)

/-- `n` equally spaced time values from `t0` on. -/
noncomputable def equidistant (t0 dt : ℝ) (n : Nat) : List ℝ := (List.range n).map (fun i : Nat => t0 + i * dt)

/-- The angle and the radius of the limit cycle at time `t` after the start in `(x1, x2)` (with the small number that is added to the starting radius). -/
noncomputable def cycleAt (eps x1 x2 t : ℝ) : ℝ × ℝ :=
  (t / eps + cycleAngle x1 x2, Real.exp t / √(-1 + Real.exp (2 * t) + 1 / (norm2 x1 x2 + 10 ^ (-10 : ℤ)) ^ 2))

/-! ## Lemmas -/

lemma diffs_length (l : List ℝ) : (diffs l).length = l.length - 1 := by
  fun_induction diffs l with
  | case1 a b l ih => simp only [List.length_cons, ih]; omega
  | case2 l h =>
    match l, h with
    | [], _ => rfl
    | [a], _ => rfl
    | a :: b :: l, h => exact absurd rfl (h a b l)

lemma diffs_get (l : List ℝ) : ∀ i a b, l[i]? = some a → l[i + 1]? = some b → (diffs l)[i]? = some (b - a) := by
  fun_induction diffs l with
  | case1 x y l ih =>
    intro i a b ha hb
    cases i with
    | zero => simp at ha hb; subst ha hb; rfl
    | succ i => exact ih i a b (by simpa using ha) (by simpa using hb)
  | case2 l h =>
    intro i a b ha hb
    match l, h with
    | [], _ => simp at ha
    | [x], _ => simp at hb
    | x :: y :: l, h => exact absurd rfl (h x y l)

lemma cycleLinspace_eq (dt : ℝ) (n i : Nat) (h : i < n) : linspaceTime dt n i = i * dt := by
  unfold linspaceTime
  by_cases hn : n = 1
  · have : i = 0 := by omega
    simp [hn, this]
  · rw [if_neg hn]
    have : (n : ℝ) - 1 ≠ 0 := by
      intro h0
      have : (n : ℝ) = 1 := by linarith
      exact hn (by exact_mod_cast this)
    field_simp

lemma oneDifference_iff (rnd : ℝ → ℤ) (l : List ℝ) : oneDifference rnd l = true ↔ l ≠ [] ∧ ∀ a ∈ l, ∀ b ∈ l, rnd a = rnd b := by
  cases l with
  | nil => simp [oneDifference]
  | cons d ds =>
    simp only [oneDifference, List.all_eq_true, decide_eq_true_eq]
    constructor
    · intro h
      refine ⟨by simp, fun a ha b hb => ?_⟩
      have q : ∀ c ∈ d :: ds, rnd c = rnd d := fun c hc => by
        rcases List.mem_cons.1 hc with rfl | hc
        · rfl
        · exact h c hc
      rw [q a ha, q b hb]
    · rintro ⟨-, h⟩ e he
      exact h e (by simp [he]) d (by simp)

lemma mem_diffs (l : List ℝ) (d : ℝ) : d ∈ diffs l ↔ ∃ i a b, l[i]? = some a ∧ l[i + 1]? = some b ∧ d = b - a := by
  constructor
  · intro h
    obtain ⟨i, hi⟩ := List.getElem?_of_mem h
    have hlt : i < (diffs l).length := by
      by_contra hc
      rw [List.getElem?_eq_none (by omega)] at hi
      exact absurd hi (by simp)
    rw [diffs_length] at hlt
    have ha : l[i]? = some l[i] := List.getElem?_eq_getElem (by omega)
    have hb : l[i + 1]? = some l[i + 1] := List.getElem?_eq_getElem (by omega)
    refine ⟨i, _, _, ha, hb, ?_⟩
    rw [diffs_get l i _ _ ha hb] at hi
    exact (Option.some.inj hi).symm
  · rintro ⟨i, a, b, ha, hb, rfl⟩
    exact List.mem_of_getElem? (diffs_get l i a b ha hb)

/-! ## C213 -/

/-- **C213 (part).** A call is accepted exactly if there are at least two time values and all steps between neighbours agree after rounding. -/
theorem C213_accepted (rnd : ℝ → ℤ) (an : Bool) (eps x1 x2 : ℝ) (ts : List ℝ) :
    (∃ rows, cyclePredict rnd an eps x1 x2 ts = .ok rows) ↔
      2 ≤ ts.length ∧ ∀ i j a b a' b', ts[i]? = some a → ts[i + 1]? = some b → ts[j]? = some a' → ts[j + 1]? = some b' → rnd (b - a) = rnd (b' - a') := by
  have key : (∃ rows, cyclePredict rnd an eps x1 x2 ts = .ok rows) ↔ oneDifference rnd (diffs ts) = true := by
    unfold cyclePredict
    split
    · rename_i h; simp [h]
    · rename_i h; simp [h]
  rw [key, oneDifference_iff]
  have hl := diffs_length ts
  constructor
  · rintro ⟨h1, h2⟩
    have : (diffs ts).length ≠ 0 := by rw [Ne, List.length_eq_zero_iff]; exact h1
    refine ⟨by omega, fun i j a b a' b' ha hb ha' hb' => ?_⟩
    exact h2 _ ((mem_diffs ts _).2 ⟨i, a, b, ha, hb, rfl⟩) _ ((mem_diffs ts _).2 ⟨j, a', b', ha', hb', rfl⟩)
  · rintro ⟨h1, h2⟩
    refine ⟨fun h0 => by rw [h0] at hl; simp at hl; omega, fun d hd e he => ?_⟩
    obtain ⟨i, a, b, ha, hb, rfl⟩ := (mem_diffs ts d).1 hd
    obtain ⟨j, a', b', ha', hb', rfl⟩ := (mem_diffs ts e).1 he
    exact h2 i j a b a' b' ha hb ha' hb'

/-- A single time value is refused although it needs no step. -/
theorem C213_single_violated (rnd : ℝ → ℤ) (an : Bool) (eps x1 x2 t : ℝ) : cyclePredict rnd an eps x1 x2 [t] = .error .assertion := rfl

lemma predict_ok (rnd : ℝ → ℤ) (an : Bool) (eps x1 x2 : ℝ) (t0 t1 : ℝ) (ts : List ℝ) (rows : List (ℝ × ℝ × ℝ))
    (h : cyclePredict rnd an eps x1 x2 (t0 :: t1 :: ts) = .ok rows) : rows = cycleRows an eps x1 x2 (t1 - t0) (ts.length + 2) := by
  unfold cyclePredict at h
  split at h
  · exact (Except.ok.inj h).symm
  · cases h

/-- **C213 (part).** What is returned: as many rows as time values, row `i` carries the label `i * (t₁ - t₀)`; the analytical solution is evaluated at that label, measured from the initial state. -/
theorem C213_rows (rnd : ℝ → ℤ) (eps x1 x2 : ℝ) (t0 t1 : ℝ) (ts : List ℝ) (rows : List (ℝ × ℝ × ℝ))
    (h : cyclePredict rnd true eps x1 x2 (t0 :: t1 :: ts) = .ok rows) :
    rows = (List.range (ts.length + 2)).map (fun i : Nat => ((i : ℝ) * (t1 - t0), cycleAt eps x1 x2 ((i : ℝ) * (t1 - t0)))) := by
  rw [predict_ok rnd true eps x1 x2 t0 t1 ts rows h]
  unfold cycleRows
  apply List.map_congr_left
  intro i hi
  rw [List.mem_range] at hi
  simp only [if_true, cycleAnalytical, cycleAt, cycleRadius, cycleLinspace_eq _ _ _ hi]
  rw [one_div_mul_eq_div]

/-- **C213 (part).** The labels with the Euler scheme: the same; the rows start in the polar coordinates of the initial state, and one row follows from the one before by one Euler step of the first difference. -/
theorem C213_euler (rnd : ℝ → ℤ) (eps x1 x2 : ℝ) (t0 t1 : ℝ) (ts : List ℝ) (rows : List (ℝ × ℝ × ℝ))
    (h : cyclePredict rnd false eps x1 x2 (t0 :: t1 :: ts) = .ok rows) :
    rows.length = ts.length + 2 ∧ rows[0]? = some (0, cycleAngle x1 x2, norm2 x1 x2) ∧
      ∀ i p q, rows[i]? = some p → rows[i + 1]? = some q →
        q.1 = p.1 + (t1 - t0) ∧ q.2.1 = p.2.1 + (t1 - t0) / eps ∧ q.2.2 = p.2.2 + (t1 - t0) * ((1 - p.2.2 ^ 2) * p.2.2) := by
  rw [predict_ok rnd false eps x1 x2 t0 t1 ts rows h]
  have hget : ∀ i, i < ts.length + 2 → (cycleRows false eps x1 x2 (t1 - t0) (ts.length + 2))[i]? = some ((i : ℝ) * (t1 - t0), cycleEuler eps x1 x2 (t1 - t0) i) := by
    intro i hi
    unfold cycleRows
    rw [List.getElem?_map, List.getElem?_range hi]
    simp [cycleLinspace_eq _ _ _ hi]
  have hlen : (cycleRows false eps x1 x2 (t1 - t0) (ts.length + 2)).length = ts.length + 2 := by simp [cycleRows]
  refine ⟨hlen, ?_, ?_⟩
  · rw [hget 0 (by omega)]; simp [cycleEuler]
  · intro i p q hp hq
    have hi : i + 1 < ts.length + 2 := by
      by_contra hc
      rw [List.getElem?_eq_none (by rw [hlen]; omega)] at hq
      exact absurd hq (by simp)
    rw [hget i (by omega)] at hp
    rw [hget (i + 1) hi] at hq
    obtain rfl := Option.some.inj hp
    obtain rfl := Option.some.inj hq
    refine ⟨by push_cast; ring, ?_, ?_⟩
    · simp only [cycleEuler]; ring
    · simp only [cycleEuler]; ring

/-- **C213 (part).** Equally spaced time values from 0 on are labels of the result, and every row is the solution at its label. -/
theorem C213_zero_partial (rnd : ℝ → ℤ) (eps x1 x2 dt : ℝ) (n : Nat) (hn : 2 ≤ n) :
    cyclePredict rnd true eps x1 x2 (equidistant 0 dt n) = .ok ((equidistant 0 dt n).map (fun t => (t, cycleAt eps x1 x2 t))) := by
  have hsome : ∃ rows, cyclePredict rnd true eps x1 x2 (equidistant 0 dt n) = .ok rows := by
    rw [C213_accepted]
    refine ⟨by simp [equidistant]; exact hn, ?_⟩
    have q : ∀ i a b, (equidistant 0 dt n)[i]? = some a → (equidistant 0 dt n)[i + 1]? = some b → b - a = dt := by
      intro i a b ha hb
      unfold equidistant at ha hb
      rw [List.getElem?_map] at ha hb
      rw [Option.map_eq_some_iff] at ha hb
      obtain ⟨u, hu, rfl⟩ := ha
      obtain ⟨v, hv, rfl⟩ := hb
      have hu' := List.getElem?_eq_some_iff.1 hu
      have hv' := List.getElem?_eq_some_iff.1 hv
      obtain ⟨_, hu'⟩ := hu'
      obtain ⟨_, hv'⟩ := hv'
      rw [List.getElem_range] at hu' hv'
      subst hu' hv'
      push_cast; ring
    intro i j a b a' b' ha hb ha' hb'
    rw [q i a b ha hb, q j a' b' ha' hb']
  obtain ⟨rows, hr⟩ := hsome
  obtain ⟨m, rfl⟩ : ∃ m, n = m + 2 := ⟨n - 2, by omega⟩
  have hsplit : equidistant 0 dt (m + 2) = (0 + (0 : ℕ) * dt) :: (0 + (1 : ℕ) * dt) :: (List.range m).map (fun i : Nat => 0 + ((i + 2 : ℕ) : ℝ) * dt) := by
    unfold equidistant
    rw [List.range_succ_eq_map, List.range_succ_eq_map]
    simp [List.map_map, Function.comp_def]
    intro a _
    left; ring
  rw [hr]
  have h2 := hr
  rw [hsplit] at h2
  rw [C213_rows rnd eps x1 x2 _ _ _ rows h2]
  unfold equidistant
  simp [List.map_map, Function.comp_def]

/-- **C213 (part).** How far the labels are from the requested time values, counted from the first one: in row `i` at most `i` roundings. -/
theorem C213_drift_partial (rnd : ℝ → ℤ) (hr : Rounds rnd) (an : Bool) (eps x1 x2 : ℝ) (t0 t1 : ℝ) (ts : List ℝ) (rows : List (ℝ × ℝ × ℝ))
    (h : cyclePredict rnd an eps x1 x2 (t0 :: t1 :: ts) = .ok rows) (i : Nat) (t : ℝ) (ht : (t0 :: t1 :: ts)[i]? = some t) :
    ∃ row, rows[i]? = some row ∧ |row.1 - (t - t0)| ≤ i * (1 / 10 ^ 10) := by
  have hacc := (C213_accepted rnd an eps x1 x2 (t0 :: t1 :: ts)).1 ⟨rows, h⟩
  have hi : i < ts.length + 2 := by
    obtain ⟨q, _⟩ := List.getElem?_eq_some_iff.1 ht
    simp only [List.length_cons] at q; omega
  refine ⟨_, by rw [predict_ok rnd an eps x1 x2 t0 t1 ts rows h]; unfold cycleRows; rw [List.getElem?_map, List.getElem?_range hi]; rfl, ?_⟩
  simp only [cycleLinspace_eq _ _ _ hi]
  clear hi
  induction i generalizing t with
  | zero => simp at ht; subst ht; simp
  | succ i ih =>
    have hlt : i < (t0 :: t1 :: ts).length := by
      obtain ⟨q, _⟩ := List.getElem?_eq_some_iff.1 ht
      omega
    have hs : (t0 :: t1 :: ts)[i]? = some (t0 :: t1 :: ts)[i] := List.getElem?_eq_getElem hlt
    have h1 := ih _ hs
    have h2 := hacc.2 i 0 _ _ _ _ hs ht rfl rfl
    have r1 := hr (t - (t0 :: t1 :: ts)[i])
    have r2 := hr (t1 - t0)
    rw [h2] at r1
    rw [abs_le] at h1 r1 r2 ⊢
    push_cast
    constructor <;> linarith [h1.1, h1.2, r1.1, r1.2, r2.1, r2.2]

/-- **C213 is violated.** Time values that do not start at 0: the result does not carry the requested labels. Whenever the call is accepted and the first time value is not 0, the first label is wrong, and the
first row is the initial state at the label 0. -/
theorem C213_labels_violated (rnd : ℝ → ℤ) (eps x1 x2 : ℝ) (t0 t1 : ℝ) (ts : List ℝ) (h0 : t0 ≠ 0) (rows : List (ℝ × ℝ × ℝ))
    (h : cyclePredict rnd true eps x1 x2 (t0 :: t1 :: ts) = .ok rows) : rows[0]? = some (0, cycleAt eps x1 x2 0) ∧ rows.map (·.1) ≠ t0 :: t1 :: ts := by
  rw [C213_rows rnd eps x1 x2 t0 t1 ts rows h]
  refine ⟨by simp, ?_⟩
  intro hc
  have := congrArg List.head? hc
  simp [List.range_succ_eq_map] at this
  exact h0 this.symm

/-- **C213 is violated.** Two requests that differ by a shift of all time values are answered identically. -/
theorem C213_shift_violated (rnd : ℝ → ℤ) (an : Bool) (eps x1 x2 s : ℝ) (ts : List ℝ) : cyclePredict rnd an eps x1 x2 (ts.map (· + s)) = cyclePredict rnd an eps x1 x2 ts := by
  have hd : ∀ l : List ℝ, diffs (l.map (· + s)) = diffs l := by
    intro l
    fun_induction diffs l with
    | case1 a b l ih =>
      simp only [List.map_cons] at ih ⊢
      simp only [diffs, ih]
      congr 1
      ring
    | case2 l h =>
      match l, h with
      | [], _ => rfl
      | [x], _ => rfl
      | x :: y :: l, h => exact absurd rfl (h x y l)
  unfold cyclePredict
  rw [hd, List.length_map]

/-- There is a rounding, and three time values with slightly different steps are accepted. -/
example : Rounds (fun y => round (y * 10 ^ 10)) := by
  intro y
  have h := abs_sub_round (y * 10 ^ 10)
  have e : (round (y * 10 ^ 10) : ℝ) * (1 / 10 ^ 10) - y = -(y * 10 ^ 10 - round (y * 10 ^ 10)) * (1 / 10 ^ 10) := by field_simp; ring
  rw [e, abs_mul, abs_neg, abs_of_pos (by positivity : (0 : ℝ) < 1 / 10 ^ 10)]
  exact mul_le_mul_of_nonneg_right h (by positivity)

example (rnd : ℝ → ℤ) : ∃ rows, cyclePredict rnd true 1 1 0 (equidistant 0 2 3) = .ok rows := ⟨_, C213_zero_partial rnd 1 1 0 2 3 (by norm_num)⟩

example (rnd : ℝ → ℤ) : ∃ rows, cyclePredict rnd true 1 1 0 ((equidistant 0 2 3).map (· + 5)) = .ok rows := ⟨_, (C213_shift_violated rnd true 1 1 0 5 _).trans (C213_zero_partial rnd 1 1 0 2 3 (by norm_num))⟩

end Verif.Utils
