import Verif.Tsc.Derivative
import Verif.Tsc.FramesProps
import Verif.Tsc.MapVal
import Mathlib.Algebra.Polynomial.Taylor
import Mathlib.Algebra.Polynomial.HasseDeriv
import Mathlib.Algebra.Polynomial.Derivative
import Mathlib.Tactic.LinearCombination
import Mathlib.Tactic.IntervalCases
import Mathlib.Tactic.NormNum
import Mathlib.Tactic.FieldSimp
/-! # Finite differences in time (C128, C129) -/

namespace Verif.Tsc

open Verif.Np Polynomial

variable {ι : Type}

/-- What makes a list of offsets and weights a finite difference scheme for the derivative of order `q` with the accuracy `acc`: zero is one of the offsets, and the weights solve the linear system from which
`findiff` computes them. -/
structure IsScheme (scheme : Scheme) (st : Stencil) (q acc : Nat) : Prop where
  zero_mem : (0 : Int) ∈ st.map (·.1)
  backward : scheme = .backward → ∀ k ∈ st, k.1 ≤ 0
  moments : ∀ m < q + acc, (st.map (fun k => k.2 * (k.1 : ℝ) ^ m)).sum = if m = q then (q.factorial : ℝ) else 0

theorem mem_min_le {l : List Int} {a : Int} (h : a ∈ l) : l.min?.getD 0 ≤ a := by
  cases hm : l.min? with
  | none => rw [List.min?_eq_none_iff] at hm; subst hm; simp at h
  | some m =>
    have := (List.min?_eq_some_iff.1 hm).2 a h
    simpa using this

theorem le_max_mem {l : List Int} {a : Int} (h : a ∈ l) : a ≤ l.max?.getD 0 := by
  cases hm : l.max? with
  | none => rw [List.max?_eq_none_iff] at hm; subst hm; simp at h
  | some m =>
    have := (List.max?_eq_some_iff.1 hm).2 a h
    simpa using this

theorem offset_bounds {st : Stencil} (h0 : (0 : Int) ∈ st.map (·.1)) {k : Int × ℝ} (hk : k ∈ st) : -(startSample st : Int) ≤ k.1 ∧ k.1 ≤ endSamples st := by
  have hk' : k.1 ∈ st.map (·.1) := List.mem_map_of_mem hk
  have a1 := mem_min_le hk'
  have a2 := le_max_mem hk'
  have a3 := mem_min_le h0
  have a4 := le_max_mem h0
  have e : (fun x : Int × ℝ => x.1) = Prod.fst := rfl
  rw [e] at a1 a2 a3 a4
  unfold startSample endSamples
  omega

/-- The samples of the result for one series. -/
theorem fdSeries_spec (scheme : Scheme) (st : Stencil) (q : Nat) (shift : Bool) (h : ℝ) (l : List (Int × (ι → ℝ))) :
    (fdSeries scheme st q shift h l).length = l.length - endSamples st - startSample st ∧
    ∀ (n : Nat), n < l.length - endSamples st - startSample st → ∀ (x : Int × (ι → ℝ)),
      l[if scheme ≠ .backward ∧ shift = true then n + startSample st + endSamples st else n + startSample st]? = some x →
      (fdSeries scheme st q shift h l)[n]? = some (x.1, fdValue st q h (l.map (·.2)) (n + startSample st)) := by
  have hv : (((List.range (l.length - endSamples st)).drop (startSample st)).map (fdValue st q h (l.map (·.2)))).length = l.length - endSamples st - startSample st := by simp
  unfold fdSeries
  simp only
  rw [hv]
  constructor
  · rw [List.length_zip, hv]
    split
    · simp; omega
    · simp
  · intro n hn x hx
    rw [List.getElem?_zip_eq_some]
    constructor
    · split
      · rename_i hs
        rw [if_pos hs] at hx
        rw [List.getElem?_drop, List.getElem?_map, show l.length - (l.length - endSamples st - startSample st) + n = n + startSample st + endSamples st by omega, hx]
        rfl
      · rename_i hs
        rw [if_neg hs] at hx
        rw [List.getElem?_drop, List.getElem?_take, List.getElem?_map, if_pos (by omega), add_comm, hx]
        rfl
    · rw [List.getElem?_map, List.getElem?_drop, List.getElem?_range (by omega), add_comm]
      rfl

theorem derivative_coeff (P : ℝ[X]) (q : Nat) (t : ℝ) : (taylor t P).coeff q * q.factorial = (derivative^[q] P).eval t := by
  rw [taylor_coeff, ← factorial_smul_hasseDeriv]
  simp [mul_comm]

/-- Weighted sums of values of a polynomial on a grid. -/
theorem stencil_exact {st : Stencil} {q acc : Nat} (hacc : 0 < acc) (hm : ∀ m < q + acc, (st.map (fun k => k.2 * (k.1 : ℝ) ^ m)).sum = if m = q then (q.factorial : ℝ) else 0)
    (P : ℝ[X]) (hP : P.natDegree < q + acc) (t h : ℝ) (hh : h ≠ 0) :
    (st.map (fun k => k.2 * P.eval (t + k.1 * h))).sum * (1 / h ^ q) = (derivative^[q] P).eval t := by
  have hT : ∀ s : ℝ, P.eval (t + s) = ∑ m ∈ Finset.range (q + acc), (taylor t P).coeff m * s ^ m := by
    intro s
    rw [add_comm, ← taylor_eval, eval_eq_sum_range' (by rw [natDegree_taylor]; exact hP)]
  have hsum : (st.map (fun k => k.2 * P.eval (t + k.1 * h))).sum = ∑ m ∈ Finset.range (q + acc), (taylor t P).coeff m * h ^ m * (st.map (fun k => k.2 * (k.1 : ℝ) ^ m)).sum := by
    clear hm
    induction st with
    | nil => simp
    | cons k st ih =>
      rw [List.map_cons, List.sum_cons, ih, hT, Finset.mul_sum, ← Finset.sum_add_distrib]
      simp only [List.map_cons, List.sum_cons]
      apply Finset.sum_congr rfl
      intro m _
      rw [mul_pow]
      ring
  rw [hsum, Finset.sum_eq_single q]
  · rw [hm q (by omega), if_pos rfl, ← derivative_coeff]
    field_simp
  · intro m hmm hne
    rw [hm m (Finset.mem_range.1 hmm), if_neg hne, mul_zero]
  · intro h'
    exact absurd (Finset.mem_range.2 (by omega)) h'

theorem listedSeries_inr {α : Type} (l : List α) (f : α → List (Int × (ι → ℝ))) : listedSeries (l.map (fun a => (.inr (f a) : List (Row Int (ι → ℝ)) ⊕ List (Int × (ι → ℝ))))) = l.map f := by
  induction l with
  | nil => rfl
  | cons a l ih => simp [listedSeries, ih]

theorem content_length (c : List (Row Int (ι → ℝ))) (i : Nat) : (content c i).length = (series c i).length := by simp [content]

theorem content_times (c : List (Row Int (ι → ℝ))) (i : Nat) : (content c i).map (·.1) = timesOf c i := by simp [content, timesOf, Function.comp_def]

theorem fdSeries_times_sublist (scheme : Scheme) (st : Stencil) (q : Nat) (shift : Bool) (h : ℝ) (l : List (Int × (ι → ℝ))) :
    ((fdSeries scheme st q shift h l).map (·.1)).Sublist (l.map (·.1)) := by
  unfold fdSeries
  simp only
  refine (map_fst_zip_sublist _ _).trans ?_
  split
  · exact List.drop_sublist _ _
  · exact (List.drop_sublist _ _).trans (List.take_sublist _ _)

theorem timesOf_sorted {c : List (Row Int (ι → ℝ))} (hv : Valid c) (i : Nat) : (timesOf c i).Pairwise (· < ·) := by
  unfold timesOf
  rw [List.pairwise_map]
  exact hv.series_sorted i

/-- The listed frames of the result, for any spacing. -/
noncomputable def fdFrames (scheme : Scheme) (st : Stencil) (q : Nat) (shift : Bool) (h : ℝ) (c : List (Row Int (ι → ℝ))) : List (List (Row Int (ι → ℝ)) ⊕ List (Int × (ι → ℝ))) :=
  (itertimeseries c).map (fun p => .inr (fdSeries scheme st q shift h p.2))

theorem derivative_regular {c : List (Row Int (ι → ℝ))} (hc : c ≠ []) (hv : Valid c) (scheme : Scheme) (st : Stencil) (q : Nat) (shift : Bool) {h : Int} (hh : ∀ i, HasId c i → Regular (timesOf c i) h) :
    timeDerivative scheme st q shift c = fromFrameList (fdFrames scheme st q shift h c) (some (ids c)) := by
  unfold timeDerivative
  rw [isConstDelta_regular hc hv hh, C11_regular hc hv .int hh]
  rfl

theorem derivative_spacing {c d : List (Row Int (ι → ℝ))} {scheme : Scheme} {st : Stencil} {q : Nat} {shift : Bool} (hd : timeDerivative scheme st q shift c = .ok d) :
    ∃ h : Int, deltaTime .int c = .one (some h) ∧ fromFrameList (fdFrames scheme st q shift h c) (some (ids c)) = .ok d := by
  unfold timeDerivative at hd
  cases hb : isConstDeltaTime .int c with
  | false => rw [hb] at hd; simp at hd
  | true =>
    rw [hb] at hd
    match hdt : deltaTime .int c with
    | .one (some h) =>
      rw [hdt] at hd
      exact ⟨h, rfl, hd⟩
    | .one none => rw [hdt] at hd; simp at hd
    | .per l => rw [hdt] at hd; simp at hd

theorem fdFrames_ok {c : List (Row Int (ι → ℝ))} (hc : c ≠ []) (hv : Valid c) (scheme : Scheme) (st : Stencil) (q : Nat) (shift : Bool) (h : ℝ) :
    ((∃ d, fromFrameList (fdFrames scheme st q shift h c) (some (ids c)) = .ok d) ↔ ∀ i, HasId c i → startSample st + endSamples st < (series c i).length) ∧
    ∀ d, fromFrameList (fdFrames scheme st q shift h c) (some (ids c)) = .ok d → Valid d ∧ newIds (d.map (·.id)) = ids c ∧ (∀ i, HasId d i ↔ HasId c i) ∧
      (∀ i, HasId c i → content d i = fdSeries scheme st q shift h (content c i)) ∧
      ∀ i, HasId c i → (series d i).length + startSample st + endSamples st = (series c i).length := by
  have hl : listedSeries (fdFrames scheme st q shift h c) = (ids c).map (fun i => fdSeries scheme st q shift h (content c i)) := by
    unfold fdFrames
    rw [listedSeries_inr]
    simp only [itertimeseries, List.map_map]
    rfl
  have hlen : ∀ i, (fdSeries scheme st q shift h (content c i)).length = (series c i).length - endSamples st - startSample st := by
    intro i
    rw [(fdSeries_spec scheme st q shift h (content c i)).1, content_length]
  obtain ⟨h1, h2⟩ := C125_frame_list (fdFrames scheme st q shift h c) (some (ids c))
  rw [hl] at h1 h2
  have hlong : (∀ f ∈ (ids c).map (fun i => fdSeries scheme st q shift h (content c i)), f ≠ [] ∧ (f.map (·.1)).Pairwise (· < ·)) ↔
      ∀ i, HasId c i → startSample st + endSamples st < (series c i).length := by
    simp only [List.forall_mem_map]
    constructor
    · intro hf i hi
      have := List.length_pos_iff.2 (hf i (mem_ids.2 hi)).1
      rw [hlen] at this
      omega
    · intro hf i hi
      have := hf i (mem_ids.1 hi)
      refine ⟨List.length_pos_iff.1 (by rw [hlen]; omega), ?_⟩
      refine List.Pairwise.sublist (fdSeries_times_sublist _ _ _ _ _ _) ?_
      rw [content_times]
      exact timesOf_sorted hv i
  rw [hlong] at h1
  constructor
  · rw [h1]
    constructor
    · exact fun hx => hx.2.2
    · intro hx
      refine ⟨by simpa using ids_ne_nil hc, ?_, hx⟩
      rintro is his
      cases his
      exact ⟨ids_nodup c, by simp⟩
  · intro d hd
    have hx := (h1.1 ⟨d, hd⟩).2.2
    obtain ⟨v1, v2, v3⟩ := h2 d hd
    have v2 : newIds (d.map (·.id)) = ids c := v2
    rw [v2] at v3
    have hcont : ∀ i ∈ ids c, content d i = fdSeries scheme st q shift h (content c i) := List.map_inj_left.1 v3
    have hids : ∀ i, HasId d i ↔ HasId c i := by
      intro i
      rw [← mem_ids (c := c), ← v2, mem_newIds, List.mem_map]
      rfl
    refine ⟨v1, v2, hids, fun i hi => hcont i (mem_ids.2 hi), ?_⟩
    intro i hi
    have := congrArg List.length (hcont i (mem_ids.2 hi))
    rw [content_length, hlen] at this
    have := hx i hi
    omega

/-- **C128 (result).** For a non-empty valid collection with integer time values whose steps are moderate (or which is regularly sampled, with steps of any size), `time_derivative` succeeds iff all series are sampled
with one constant interval and are longer than the number of samples that the scheme reaches to the left and to the right. The result, for steps of any size, is valid and has the same IDs. -/
theorem C128_accepts {c : List (Row Int (ι → ℝ))} (hc : c ≠ []) (hv : Valid c) (scheme : Scheme) (st : Stencil) (q : Nat) (shift : Bool) :
    ((ModerateSteps c ∨ ∃ h, ∀ i, HasId c i → Regular (timesOf c i) h) →
      ((∃ d, timeDerivative scheme st q shift c = .ok d) ↔ (∃ h, ∀ i, HasId c i → Regular (timesOf c i) h) ∧ ∀ i, HasId c i → startSample st + endSamples st < (series c i).length)) ∧
    ∀ d, timeDerivative scheme st q shift c = .ok d → Valid d ∧ (∀ i, HasId d i ↔ HasId c i) ∧
      ∀ i, HasId c i → (series d i).length + startSample st + endSamples st = (series c i).length := by
  constructor
  · intro hm
    by_cases hr : ∃ h, ∀ i, HasId c i → Regular (timesOf c i) h
    · obtain ⟨h, hh⟩ := hr
      rw [derivative_regular hc hv scheme st q shift hh, (fdFrames_ok hc hv scheme st q shift h).1]
      exact ⟨fun hx => ⟨⟨h, hh⟩, hx⟩, fun hx => hx.2⟩
    · have hm := hm.resolve_right hr
      have hb : isConstDeltaTime .int c = false := by
        rw [← Bool.not_eq_true]
        intro h
        exact hr ((isConstDelta_iff hc hv hm).1 h)
      unfold timeDerivative
      rw [hb]
      simp [hr]
  · intro d hd
    obtain ⟨h, -, hd⟩ := derivative_spacing hd
    obtain ⟨v1, -, v3, -, v5⟩ := (fdFrames_ok hc hv scheme st q shift h).2 d hd
    exact ⟨v1, v3, v5⟩

/-- **C128 (time values).** Series `i` of the result is sampled at the time values of series `i` without the first and last ones, or, with `shift_index` and a scheme that is not 'backward', without as many first
ones. -/
theorem C128_labels {c d : List (Row Int (ι → ℝ))} (hc : c ≠ []) (hv : Valid c) {scheme : Scheme} {st : Stencil} {q : Nat} {shift : Bool}
    (hd : timeDerivative scheme st q shift c = .ok d) (i : Nat) (hi : HasId c i) :
    ((scheme = .backward ∨ shift = false) → ∃ first last, timesOf c i = first ++ timesOf d i ++ last ∧ first.length = startSample st ∧ last.length = endSamples st) ∧
    ((scheme ≠ .backward ∧ shift = true) → ∃ first, timesOf c i = first ++ timesOf d i ∧ first.length = startSample st + endSamples st) := by
  obtain ⟨h, -, hd⟩ := derivative_spacing hd
  have hlong := (fdFrames_ok hc hv scheme st q shift h).1.1 ⟨d, hd⟩ i hi
  have hcont := ((fdFrames_ok hc hv scheme st q shift h).2 d hd).2.2.2.1
  have ht : timesOf d i = if scheme ≠ .backward ∧ shift = true then (timesOf c i).drop (startSample st + endSamples st)
      else ((timesOf c i).take ((timesOf c i).length - endSamples st)).drop (startSample st) := by
    rw [← content_times, hcont i hi]
    unfold fdSeries
    simp only
    have hcl := content_length c i
    rw [content_times]
    have htl : (timesOf c i).length = (content c i).length := by rw [← content_times, List.length_map]
    rw [List.map_fst_zip]
    · split
      · congr 1
        simp
        omega
      · rw [htl]
    · split
      · rw [List.length_drop, htl]
        omega
      · rw [List.length_drop, List.length_take, htl, List.length_map, List.length_drop, List.length_range]
        omega
  have htl : (timesOf c i).length = (series c i).length := by simp [timesOf]
  constructor
  · intro hs
    rw [if_neg (by rintro ⟨h1, h2⟩; rcases hs with hs | hs <;> simp_all)] at ht
    refine ⟨(timesOf c i).take (startSample st), (timesOf c i).drop ((timesOf c i).length - endSamples st), ?_, by simp; omega, by simp; omega⟩
    rw [ht]
    have e : (timesOf c i).take (startSample st) = ((timesOf c i).take ((timesOf c i).length - endSamples st)).take (startSample st) := by
      rw [List.take_take]
      congr 1
      omega
    rw [e, List.take_append_drop, List.take_append_drop]
  · intro hs
    rw [if_pos hs] at ht
    exact ⟨(timesOf c i).take (startSample st + endSamples st), by rw [ht, List.take_append_drop], by simp; omega⟩

/-- How the samples of the result are made. -/
theorem derivative_row {c d : List (Row Int (ι → ℝ))} (hc : c ≠ []) (hv : Valid c) {scheme : Scheme} {st : Stencil} {q : Nat} {shift : Bool}
    {h : Int} (hh : deltaTime .int c = .one (some h))
    (hd : timeDerivative scheme st q shift c = .ok d) {r : Row Int (ι → ℝ)} (hr : r ∈ d) :
    ∃ n, n + startSample st + endSamples st < (content c r.id).length ∧
      (content c r.id)[if scheme ≠ .backward ∧ shift = true then n + startSample st + endSamples st else n + startSample st]?.map (·.1) = some r.time ∧
      r.val = fdValue st q h ((content c r.id).map (·.2)) (n + startSample st) := by
  obtain ⟨h', hh', hd⟩ := derivative_spacing hd
  rw [hh] at hh'
  simp only [PerId.one.injEq, Option.some.injEq] at hh'
  subst hh'
  obtain ⟨-, -, hids, hcont, -⟩ := (fdFrames_ok hc hv scheme st q shift h).2 d hd
  have hi : HasId c r.id := (hids _).1 ⟨r, hr, rfl⟩
  have hmem : (r.time, r.val) ∈ content d r.id := List.mem_map.2 ⟨r, mem_series.2 ⟨hr, rfl⟩, rfl⟩
  rw [hcont _ hi] at hmem
  obtain ⟨n, hn⟩ := List.mem_iff_getElem?.1 hmem
  obtain ⟨e1, e2⟩ := fdSeries_spec scheme st q shift h (content c r.id)
  have hlt : n < (content c r.id).length - endSamples st - startSample st := by
    rw [← e1]
    exact (List.getElem?_eq_some_iff.1 hn).1
  refine ⟨n, by omega, ?_⟩
  have hpos : (if scheme ≠ .backward ∧ shift = true then n + startSample st + endSamples st else n + startSample st) < (content c r.id).length := by
    split <;> omega
  have hx := List.getElem?_eq_getElem hpos
  have := e2 n hlt _ hx
  rw [this] at hn
  simp only [Option.some.injEq, Prod.mk.injEq] at hn
  rw [hx]
  exact ⟨by simp [hn.1], hn.2.symm⟩

theorem regular_get {l : List Int} {h : Int} (hr : Regular l h) : ∀ (m n : Nat) (a b : Int), l[m]? = some a → l[n]? = some b → b - a = ((n : Int) - m) * h := by
  have step : ∀ (n : Nat) (a b : Int), l[n]? = some a → l[n + 1]? = some b → b - a = h := by
    intro n a b ha hb
    refine hr.2 (a, b) ?_
    clear hr
    induction l generalizing n with
    | nil => simp at ha
    | cons x l ih =>
      cases l with
      | nil => simp at hb
      | cons y l =>
        cases n with
        | zero => simp at ha hb; subst ha hb; simp [consecutive]
        | succ n =>
          simp only [consecutive]
          exact List.mem_cons_of_mem _ (ih n (by simpa using ha) (by simpa using hb))
  have up : ∀ (k m : Nat) (a b : Int), l[m]? = some a → l[m + k]? = some b → b - a = k * h := by
    intro k
    induction k with
    | zero =>
      intro m a b ha hb
      rw [add_zero, ha] at hb
      cases hb
      simp
    | succ k ih =>
      intro m a b ha hb
      have hlt : m + k < l.length := by
        have := (List.getElem?_eq_some_iff.1 hb).1
        omega
      have hx := List.getElem?_eq_getElem hlt
      have e1 := ih m a _ ha hx
      have e2 := step (m + k) _ b hx hb
      push_cast
      linear_combination e1 + e2
  intro m n a b ha hb
  rcases Nat.le_total m n with hmn | hmn
  · obtain ⟨k, rfl⟩ := Nat.exists_eq_add_of_le hmn
    have := up k m a b ha hb
    push_cast
    linear_combination this
  · obtain ⟨k, rfl⟩ := Nat.exists_eq_add_of_le hmn
    have := up k n b a hb ha
    push_cast
    linear_combination -this

/-- **C128 (exact on polynomials).** Let each feature of each series be a polynomial in time of degree below `q + acc`. Then every sample of the result is the exact `q`-th derivative: at its own time value, or, with
`shift_index` and a scheme that is not 'backward', at the time that lies `endSamples` intervals before. -/
theorem C128_exact {c d : List (Row Int (ι → ℝ))} (hc : c ≠ []) (hv : Valid c) {scheme : Scheme} {st : Stencil} {q acc : Nat} (hst : IsScheme scheme st q acc) (hacc : 0 < acc) {shift : Bool}
    {h : Int} (hh : ∀ i, HasId c i → Regular (timesOf c i) h) (P : Nat → ι → ℝ[X]) (hdeg : ∀ i f, (P i f).natDegree < q + acc)
    (hval : ∀ r ∈ c, ∀ f, r.val f = (P r.id f).eval (r.time : ℝ)) (hd : timeDerivative scheme st q shift c = .ok d) :
    ∀ r ∈ d, ∀ f, r.val f = (derivative^[q] (P r.id f)).eval (r.time - (if scheme ≠ .backward ∧ shift = true then (endSamples st : ℝ) * h else 0)) := by
  intro r hr f
  obtain ⟨n, hn, ht, hvl⟩ := derivative_row hc hv (C11_regular hc hv .int hh) hd hr
  have hids := ((C128_accepts hc hv scheme st q shift).2 d hd).2.1
  have hi : HasId c r.id := (hids _).1 ⟨r, hr, rfl⟩
  have hreg := hh _ hi
  rw [← content_times] at hreg
  have hp := regular_pos hv (hh _ hi)
  have hget := regular_get hreg
  rw [hvl]
  unfold fdValue
  -- the time at the position where the scheme is centred
  have hpos : n + startSample st < (content c r.id).length := by omega
  set t0 : Int := (content c r.id)[n + startSample st].1 with ht0
  have hx0 : ((content c r.id).map (·.1))[n + startSample st]? = some t0 := by
    rw [List.getElem?_map, List.getElem?_eq_getElem hpos]
    rfl
  have htime : (r.time : ℝ) - (if scheme ≠ .backward ∧ shift = true then (endSamples st : ℝ) * h else 0) = t0 := by
    rw [← List.getElem?_map] at ht
    split at ht
    · rename_i hs
      rw [if_pos hs]
      have := hget _ _ _ _ hx0 ht
      push_cast at this
      have h2 : r.time = t0 + endSamples st * h := by linear_combination this
      rw [h2]
      push_cast
      ring
    · rename_i hs
      rw [if_neg hs]
      rw [hx0, Option.some.injEq] at ht
      rw [← ht]
      simp
  rw [htime, ← stencil_exact hacc hst.moments (P r.id f) (hdeg _ _) (t0 : ℝ) (h : ℝ) (by exact_mod_cast hp.ne')]
  congr 2
  apply List.map_congr_left
  intro k hk
  obtain ⟨b1, b2⟩ := offset_bounds hst.zero_mem hk
  have hlt : (((n + startSample st : Nat) : Int) + k.1).toNat < (content c r.id).length := by omega
  have hxk := List.getElem?_eq_getElem hlt
  rw [List.getElem?_map, hxk]
  simp only [Option.map_some, Option.getD_some]
  have hmem := List.getElem_mem hlt
  generalize hx : (content c r.id)[(((n + startSample st : Nat) : Int) + k.1).toNat] = x at hmem hxk
  obtain ⟨y, hy, rfl⟩ := List.mem_map.1 hmem
  have hyc := (mem_series.1 hy)
  have hk1 := hget _ _ _ _ hx0 (by rw [List.getElem?_map, hxk]; rfl : _ = some y.time)
  rw [Int.toNat_of_nonneg (by omega)] at hk1
  have hyt : (y.time : ℝ) = t0 + k.1 * h := by
    have : y.time = t0 + k.1 * h := by push_cast at hk1; linear_combination hk1
    rw [this]
    push_cast
    ring
  simp only
  rw [hval y hyc.1 f, hyc.2, hyt]

/-- **C129 (no future samples).** With `shift_index`, or with the scheme 'backward', a sample of the result does not depend on later samples: if two collections with the same index agree, in a series, up to a
time `t`, then their derivatives agree in this series at `t`. -/
theorem C129_causal {c d c' d' : List (Row Int (ι → ℝ))} (hc : c ≠ []) (hv : Valid c) {scheme : Scheme} {st : Stencil} {q acc : Nat} (hst : IsScheme scheme st q acc) {shift : Bool}
    (hs : scheme = .backward ∨ shift = true) (hkeys : c.map (·.key) = c'.map (·.key))
    (hd : timeDerivative scheme st q shift c = .ok d) (hd' : timeDerivative scheme st q shift c' = .ok d')
    {r r' : Row Int (ι → ℝ)} (hr : r ∈ d) (hr' : r' ∈ d') (hk : r.key = r'.key)
    (hpast : ∀ x ∈ c, ∀ x' ∈ c', x.key = x'.key → x.id = r.id → x.time ≤ r.time → x.val = x'.val) : r.val = r'.val := by
  have hid : r.id = r'.id := congrArg Key.id hk
  have htm : r.time = r'.time := congrArg Key.time hk
  have hrow : ∀ x ∈ c.zip c', x.1.key = x.2.key := by
    intro x hx
    obtain ⟨n, hn, rfl⟩ := List.mem_iff_getElem.1 hx
    have e := congrArg (fun l => l[n]?) hkeys
    rw [List.length_zip] at hn
    simp only [List.getElem?_map] at e
    rw [List.getElem?_eq_getElem (by omega), List.getElem?_eq_getElem (by omega)] at e
    simpa using e
  have hlen : c.length = c'.length := by simpa using congrArg List.length hkeys
  have hz1 : c = (c.zip c').map (·.1) := by rw [List.map_fst_zip]; omega
  have hz2 : c' = (c.zip c').map (·.2) := by rw [List.map_snd_zip]; omega
  have hser : ∀ i, series c i = ((c.zip c').filter (fun x => x.1.id == i)).map (·.1) := by
    intro i
    conv_lhs => rw [hz1]
    rw [series, List.filter_map]
    rfl
  have hser' : ∀ i, series c' i = ((c.zip c').filter (fun x => x.1.id == i)).map (·.2) := by
    intro i
    conv_lhs => rw [hz2]
    rw [series, List.filter_map]
    congr 1
    apply List.filter_congr
    intro x hx
    have := congrArg Key.id (hrow x hx)
    simp only [Row.key] at this
    simp [this]
  have htimes : ∀ i, timesOf c' i = timesOf c i := by
    intro i
    unfold timesOf
    rw [hser, hser', List.map_map, List.map_map]
    apply List.map_congr_left
    intro x hx
    have := congrArg Key.time (hrow x (List.mem_of_mem_filter hx))
    simpa [Row.key] using this.symm
  have hhas : ∀ i, HasId c' i ↔ HasId c i := by
    intro i
    rw [hasId_iff_series, hasId_iff_series, hser, hser']
    simp
  have hc' : c' ≠ [] := by
    rintro rfl
    simp at hlen
    exact hc hlen
  have hv' : Valid c' := by
    have e1 : c'.map (·.id) = c.map (·.id) := by
      have := congrArg (List.map Key.id) hkeys
      simpa [Function.comp_def, Row.key] using this.symm
    constructor
    · rw [e1]
      exact hv.contiguous
    · intro i j hij hj he
      have ek : ∀ n (h1 : n < c.length) (h2 : n < c'.length), c[n].key = c'[n].key := by
        intro n h1 h2
        have e := congrArg (fun l => l[n]?) hkeys
        simp only [List.getElem?_map] at e
        rw [List.getElem?_eq_getElem h1, List.getElem?_eq_getElem h2] at e
        simpa using e
      have k1 := ek i (by omega) (by omega)
      have k2 := ek j (by omega) hj
      have a1 := congrArg Key.id k1
      have a2 := congrArg Key.id k2
      have b1 := congrArg Key.time k1
      have b2 := congrArg Key.time k2
      simp only [Row.key] at a1 a2 b1 b2
      rw [← b1, ← b2]
      exact hv.increasing i j hij (by omega) (by rw [a1, a2]; exact he)
  obtain ⟨h, hh, -⟩ := derivative_spacing hd
  have hh' : deltaTime .int c' = .one (some h) := by
    rw [← hh, ← mapVal_deltaTime .int (fun _ => ()) c', ← mapVal_deltaTime .int (fun _ => ()) c]
    congr 1
    unfold mapVal
    have := congrArg (List.map (fun k : Key Int => (⟨k.id, k.time, ()⟩ : Row Int Unit))) hkeys
    simpa [Function.comp_def, Row.key] using this.symm
  obtain ⟨n, hn, ht, hvl⟩ := derivative_row hc hv hh hd hr
  obtain ⟨n', hn', ht', hvl'⟩ := derivative_row hc' hv' hh' hd' hr'
  rw [← hid] at hn' ht' hvl'
  rw [← List.getElem?_map, content_times] at ht ht'
  rw [htimes, ← htm] at ht'
  have hsort := timesOf_sorted hv r.id
  have hinj : ∀ (a b : Nat) (t : Int), (timesOf c r.id)[a]? = some t → (timesOf c r.id)[b]? = some t → a = b := by
    intro a b t ha hb
    obtain ⟨ha1, ha2⟩ := List.getElem?_eq_some_iff.1 ha
    obtain ⟨hb1, hb2⟩ := List.getElem?_eq_some_iff.1 hb
    rw [List.pairwise_iff_getElem] at hsort
    rcases Nat.lt_trichotomy a b with hab | hab | hab
    · have := hsort a b ha1 hb1 hab
      omega
    · exact hab
    · have := hsort b a hb1 ha1 hab
      omega
  have hnn : n = n' := by
    have := hinj _ _ _ ht ht'
    split at this <;> omega
  subst hnn
  rw [hvl, hvl']
  -- every position that is used lies at or before the label
  have hend : ∀ k ∈ st, ∀ m, ((n + startSample st : Nat) : Int) + k.1 = (m : Nat) → m ≤ (if scheme ≠ .backward ∧ shift = true then n + startSample st + endSamples st else n + startSample st) := by
    intro k hk m hmk
    obtain ⟨b1, b2⟩ := offset_bounds hst.zero_mem hk
    split
    · omega
    · rename_i hcond
      have hb : scheme = .backward := by
        by_contra hne
        rcases hs with hs | hs
        · exact hne hs
        · exact hcond ⟨hne, hs⟩
      have := hst.backward hb k hk
      omega
  funext f
  unfold fdValue
  congr 2
  apply List.map_congr_left
  intro k hk
  obtain ⟨b1, b2⟩ := offset_bounds hst.zero_mem hk
  have hm1 := hend k hk (((n + startSample st : Nat) : Int) + k.1).toNat (by omega)
  set m := (((n + startSample st : Nat) : Int) + k.1).toNat with hmdef
  have hml : m < (content c r.id).length := by omega
  rw [content_length, hser, List.length_map] at hml
  have hzm := List.getElem?_eq_getElem hml
  set z := ((c.zip c').filter (fun x => x.1.id == r.id))[m] with hz
  have hzmem : z ∈ (c.zip c').filter (fun x => x.1.id == r.id) := List.getElem_mem hml
  have hzz := List.mem_of_mem_filter hzmem
  have e1 : ((content c r.id).map (·.2))[m]? = some z.1.val := by
    rw [content, hser, List.map_map, List.map_map, List.getElem?_map, hzm]
    rfl
  have e2 : ((content c' r.id).map (·.2))[m]? = some z.2.val := by
    rw [content, hser', List.map_map, List.map_map, List.getElem?_map, hzm]
    rfl
  have e3 : (timesOf c r.id)[m]? = some z.1.time := by
    rw [timesOf, hser, List.map_map, List.getElem?_map, hzm]
    rfl
  rw [e1, e2]
  have hzid : z.1.id = r.id := by
    have := (List.mem_filter.1 hzmem).2
    simpa using this
  have hle : z.1.time ≤ r.time := by
    obtain ⟨a1, a2⟩ := List.getElem?_eq_some_iff.1 e3
    obtain ⟨a3, a4⟩ := List.getElem?_eq_some_iff.1 ht
    rw [← a2, ← a4]
    rcases Nat.lt_or_eq_of_le hm1 with hlt | heq
    · rw [List.pairwise_iff_getElem] at hsort
      exact le_of_lt (hsort _ _ a1 a3 hlt)
    · exact le_of_eq (by congr 1)
  rw [hpast z.1 (List.of_mem_zip hzz).1 z.2 (List.of_mem_zip hzz).2 (hrow z hzz) hzid hle]

/-- The samples of `t²` on two grids whose intervals differ by one part in `10¹²`. -/
def exTolerance : List (Row Int (Unit → ℝ)) :=
  [⟨0, 0, fun _ => 0 ^ 2⟩, ⟨0, 1000000000000, fun _ => 1000000000000 ^ 2⟩, ⟨0, 2000000000000, fun _ => 2000000000000 ^ 2⟩,
   ⟨1, 0, fun _ => 0 ^ 2⟩, ⟨1, 1000000000001, fun _ => 1000000000001 ^ 2⟩, ⟨1, 2000000000002, fun _ => 2000000000002 ^ 2⟩]

theorem exTolerance_valid : Valid exTolerance := (valid_iff _).2 (by unfold Before exTolerance; constructor <;> simp [newIds])

theorem exTolerance_delta : deltaTime .int exTolerance = .one (some 1000000000000) := by
  rw [← mapVal_deltaTime .int (fun _ => ())]
  decide +kernel

theorem exTolerance_ids {i : Nat} (hi : HasId exTolerance i) : i = 0 ∨ i = 1 := by
  obtain ⟨r, hr, rfl⟩ := hi
  simp only [exTolerance, List.mem_cons, List.not_mem_nil, or_false] at hr
  rcases hr with rfl | rfl | rfl | rfl | rfl | rfl <;> simp

/-- **C128 is violated by the tolerance**: two series with different intervals are accepted, and a derivative of `t²`, which the central scheme differentiates exactly, is wrong. -/
theorem C128_tolerance_violated : ∃ (c d : List (Row Int (Unit → ℝ))) (r : Row Int (Unit → ℝ)), Valid c ∧ (¬ ∃ h, ∀ i, HasId c i → Regular (timesOf c i) h) ∧
    (∀ r ∈ c, r.val () = (r.time : ℝ) ^ 2) ∧ timeDerivative .center [(-1, -1 / 2), (0, 0), (1, 1 / 2)] 1 false c = .ok d ∧ r ∈ d ∧ r.val () ≠ 2 * (r.time : ℝ) := by
  have hs : startSample [(-1, -1 / 2), (0, 0), (1, 1 / 2)] = 1 := by simp [startSample, List.min?]
  have he : endSamples [(-1, -1 / 2), (0, 0), (1, 1 / 2)] = 1 := by simp [endSamples, List.max?]
  have hne : exTolerance ≠ [] := by simp [exTolerance]
  obtain ⟨f1, f2⟩ := fdFrames_ok hne exTolerance_valid .center [(-1, -1 / 2), (0, 0), (1, 1 / 2)] 1 false ((1000000000000 : Int) : ℝ)
  obtain ⟨d, hd⟩ := f1.2 (by
    intro i hi
    rw [hs, he]
    rcases exTolerance_ids hi with rfl | rfl <;> simp [exTolerance, series])
  have h1 : HasId exTolerance 1 := ⟨⟨1, 0, fun _ => 0 ^ 2⟩, by simp [exTolerance], rfl⟩
  have hcont := (f2 d hd).2.2.2.1 1 h1
  have hmem : ((1000000000001 : Int), (fun _ => 2 * 1000000000001 ^ 2 / 1000000000000 : Unit → ℝ)) ∈ content d 1 := by
    rw [hcont]
    unfold fdSeries
    simp only [hs, he]
    simp [content, exTolerance, series, List.range_succ]
    funext f
    simp [fdValue]
    norm_num
  obtain ⟨r, hr, hre⟩ := List.mem_map.1 hmem
  refine ⟨exTolerance, d, r, exTolerance_valid, ?_, ?_, ?_, (mem_series.1 hr).1, ?_⟩
  · rintro ⟨h, hh⟩
    have a := (hh 0 ⟨⟨0, 0, fun _ => 0 ^ 2⟩, by simp [exTolerance], rfl⟩).2 (0, 1000000000000) (by simp [timesOf, series, exTolerance, consecutive])
    have b := (hh 1 h1).2 (0, 1000000000001) (by simp [timesOf, series, exTolerance, consecutive])
    omega
  · intro r hr
    simp only [exTolerance, List.mem_cons, List.not_mem_nil, or_false] at hr
    rcases hr with rfl | rfl | rfl | rfl | rfl | rfl <;> norm_num
  · unfold timeDerivative isConstDeltaTime
    rw [exTolerance_delta]
    exact hd
  · simp only [Prod.mk.injEq] at hre
    rw [hre.1, hre.2]
    norm_num

/-- The central difference of first order meets the conditions, and so do the one-sided differences. -/
example : IsScheme .center [(-1, -1 / 2), (0, 0), (1, 1 / 2)] 1 2 := by
  refine ⟨by simp, by simp, ?_⟩
  intro m hm
  interval_cases m <;> norm_num

example : IsScheme .backward [(-2, 1 / 2), (-1, -2), (0, 3 / 2)] 1 2 := by
  refine ⟨by simp, by simp, ?_⟩
  intro m hm
  interval_cases m <;> norm_num

example : IsScheme .center [(-1, 1), (0, -2), (1, 1)] 2 2 := by
  refine ⟨by simp, by simp, ?_⟩
  intro m hm
  interval_cases m <;> norm_num

/-- Two series that `time_derivative` accepts with these schemes. -/
example : let c : List (Row Int (Unit → ℝ)) := [⟨3, 0, fun _ => 0⟩, ⟨3, 2, fun _ => 4⟩, ⟨3, 4, fun _ => 16⟩, ⟨1, 1, fun _ => 5⟩, ⟨1, 3, fun _ => 2⟩, ⟨1, 5, fun _ => 2⟩]
    c ≠ [] ∧ Valid c ∧ ModerateSteps c ∧ (∀ i, HasId c i → Regular (timesOf c i) 2) ∧ ∀ i, HasId c i → 2 < (series c i).length := by
  have h : ∀ i, HasId ([⟨3, 0, fun _ => 0⟩, ⟨3, 2, fun _ => 4⟩, ⟨3, 4, fun _ => 16⟩, ⟨1, 1, fun _ => 5⟩, ⟨1, 3, fun _ => 2⟩, ⟨1, 5, fun _ => 2⟩] : List (Row Int (Unit → ℝ))) i → i = 3 ∨ i = 1 := by
    rintro i ⟨r, hr, rfl⟩
    simp at hr
    rcases hr with rfl | rfl | rfl | rfl | rfl | rfl <;> simp
  refine ⟨by simp, (valid_iff _).2 (by unfold Before; constructor <;> simp [newIds]), ?_, ?_, ?_⟩
  · intro i p hp
    by_cases h3 : i = 3
    · subst h3
      simp [timesOf, series, consecutive] at hp
      rcases hp with rfl | rfl <;> simp
    · by_cases h1 : i = 1
      · subst h1
        simp [timesOf, series, consecutive] at hp
        rcases hp with rfl | rfl <;> simp
      · simp [timesOf, series, consecutive, Ne.symm h3, Ne.symm h1] at hp
  · intro i hi
    rcases h i hi with rfl | rfl <;> simp [Regular, timesOf, series, consecutive]
  · intro i hi
    rcases h i hi with rfl | rfl <;> simp [series]

end Verif.Tsc
