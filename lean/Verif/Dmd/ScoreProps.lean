import Verif.Dmd.Score
import Verif.Dmd.StandardProps
import Verif.Tsc.MetricProps
/-!
# C176: the score of a DMD model
-/

namespace Verif.Dmd

open Verif.Tsc Verif.Dyn Verif.Np Matrix

/-! ### Specification -/

/-- Series `i` comes before series `j` by first time value, last time value and ID. -/
def SeriesBefore {V : Type} (c : List (Row Int V)) (i j : Nat) : Prop :=
  (timesOf c i).headD 0 < (timesOf c j).headD 0 ∨ ((timesOf c i).headD 0 = (timesOf c j).headD 0 ∧
    ((timesOf c i).getLastD 0 < (timesOf c j).getLastD 0 ∨ ((timesOf c i).getLastD 0 = (timesOf c j).getLastD 0 ∧ i < j)))

/-- The series of the collection are stored by ascending first time value, then last time value, then ID. -/
def StoredByTime {V : Type} (c : List (Row Int V)) : Prop := c.Pairwise (fun r s => r.id ≠ s.id → SeriesBefore c r.id s.id)

/-! ### Lemmas -/

variable {V W : Type}

theorem key_lt_before {k : TimeKind} {c : List (Row Int V)} (hv : Valid c) {d : Int} (h : HasDeltas k c (fun _ => d)) {i j : Nat} (hi : HasId c i) (hj : HasId c j)
    {a b : TimeKey} (ha : overviewKey k c i = some a) (hb : overviewKey k c j = some b) (hab : a < b) : SeriesBefore c i j := by
  unfold overviewKey at ha hb
  rw [(h i hi).1, timeInterval_eq hv] at ha
  rw [(h j hj).1, timeInterval_eq hv] at hb
  simp only [Option.map_some, Option.some.injEq] at ha hb
  subst ha; subst hb
  rcases Prod.Lex.lt_iff.1 hab with h1 | ⟨h1, h2⟩
  · exact Or.inl h1
  · rcases Prod.Lex.lt_iff.1 h2 with h3 | ⟨_, h4⟩
    · exact Or.inr ⟨h1, Or.inl h3⟩
    · exact absurd h4 (lt_irrefl _)

/-- The order of the rows that `reconstruct` returns. -/
theorem reconstruct_order {E : Type} {lift : TscErr → E} {predict : List (Row Int V) → List Int → Except E (List (Row Int W))} {k : TimeKind}
    {c : List (Row Int V)} (hc : c ≠ []) (hv : Valid c) {δ : Int} (h : HasDeltas k c (fun _ => δ))
    (hp : ∀ ic times, ic ≠ [] → Valid ic → (∀ i, HasId ic i → HasId c i ∧ content ic i = (content c i).take 1 ∧ times = (content c i).map (·.1)) →
      ∃ d, predict ic times = .ok d ∧ IdsAscending d ∧ (∀ i, HasId d i ↔ HasId ic i))
    {d : List (Row Int W)} (hd : reconstructWith lift predict k c = .ok d) :
    d.Pairwise (fun r s => r.id ≠ s.id → SeriesBefore c r.id s.id) := by
  obtain ⟨gs, hgs, hg, hall, hord⟩ := iter_order hc hv h (n := 1) le_rfl (by
    intro i hi; exact List.length_pos_iff.2 (hasId_iff_series.1 hi))
  unfold reconstructWith at hd
  rw [hgs] at hd
  dsimp only at hd
  have hex : ∀ g ∈ gs, ∃ d, predict g.1 g.2 = .ok d ∧ IdsAscending d ∧ (∀ i, HasId d i ↔ HasId g.1 i) := by
    intro g hgm
    obtain ⟨h1, h2, h3⟩ := hg g hgm
    exact hp g.1 g.2 h1 h2 (fun i hi => by simpa using h3 i hi)
  choose! f hf1 hf2 hf3 using hex
  have hm : gs.mapM (fun g => predict g.1 g.2) = .ok (gs.map f) := mapM_ok_map _ _ _ hf1
  rw [hm] at hd
  simp only at hd
  have hdd : (gs.map f).flatten = d := by
    cases hb : build (gs.map f).flatten with
    | error e => rw [hb] at hd; cases hd
    | ok d' =>
      rw [hb] at hd
      cases hd
      exact (build_ok_iff.1 hb).1
  rw [← hdd, List.pairwise_flatten]
  constructor
  · intro l hl
    obtain ⟨g, hgm, rfl⟩ := List.mem_map.1 hl
    have ha := hf2 g hgm
    unfold IdsAscending at ha
    rw [List.pairwise_map] at ha
    refine ha.imp_of_mem ?_
    intro r s hr hs hle hne
    have hr' := (hg g hgm).2.2 r.id ((hf3 g hgm r.id).1 ⟨r, hr, rfl⟩)
    have hs' := (hg g hgm).2.2 s.id ((hf3 g hgm s.id).1 ⟨s, hs, rfl⟩)
    have ht : timesOf c r.id = timesOf c s.id := by
      have := hr'.2.2.symm.trans hs'.2.2
      simpa [content, timesOf, Function.comp_def] using this
    exact Or.inr ⟨by rw [ht], Or.inr ⟨by rw [ht], lt_of_le_of_ne hle hne⟩⟩
  · rw [List.pairwise_map]
    refine hord.imp_of_mem ?_
    intro g g' hgm hgm' hgg r hr s hs _
    have hr1 := (hf3 g hgm r.id).1 ⟨r, hr, rfl⟩
    have hs1 := (hf3 g' hgm' s.id).1 ⟨s, hs, rfl⟩
    obtain ⟨a, b, ha, hb, hab⟩ := hgg r.id s.id hr1 hs1
    exact key_lt_before hv h ((hg g hgm).2.2 _ hr1).1 ((hg g' hgm').2.2 _ hs1).1 ha hb hab

theorem seriesBefore_asymm {c : List (Row Int V)} {i j : Nat} (h : SeriesBefore c i j) : ¬ SeriesBefore c j i := by
  unfold SeriesBefore at *; omega

/-- Two collections with the same series time values, both stored by time, have the same index. -/
theorem keys_of_storedByTime {c : List (Row Int V)} {d : List (Row Int W)} (hc : Valid c) (hd : Valid d) (hid : ∀ i, HasId d i ↔ HasId c i)
    (ht : ∀ i, HasId c i → (content d i).map (·.1) = (content c i).map (·.1)) (h1 : StoredByTime c)
    (h2 : d.Pairwise (fun r s => r.id ≠ s.id → SeriesBefore c r.id s.id)) : c.map (·.key) = d.map (·.key) := by
  have hk : ∀ x, x ∈ c.map (·.key) ↔ x ∈ d.map (·.key) := by
    have aux : ∀ {U : Type} (e : List (Row Int U)) (x : Key Int), x ∈ e.map (·.key) ↔ HasId e x.id ∧ x.time ∈ (content e x.id).map (·.1) := by
      intro U e x
      simp only [List.mem_map, content, HasId]
      constructor
      · rintro ⟨r, hr, rfl⟩
        exact ⟨⟨r, hr, rfl⟩, _, ⟨r, mem_series.2 ⟨hr, rfl⟩, rfl⟩, rfl⟩
      · rintro ⟨-, _, ⟨r, hr, rfl⟩, ht⟩
        obtain ⟨h1, h2⟩ := mem_series.1 hr
        refine ⟨r, h1, ?_⟩
        cases x
        simp_all [Row.key]
    intro x
    rw [aux, aux, hid]
    constructor
    · rintro ⟨a, b⟩; exact ⟨a, by rw [ht _ a]; exact b⟩
    · rintro ⟨a, b⟩; exact ⟨a, by rw [← ht _ a]; exact b⟩
  have hp : (c.map (·.key)).Perm (d.map (·.key)) := (List.perm_ext_iff_of_nodup (nodup_keys_of_pairwise c ((valid_iff c).1 hc).2) (nodup_keys_of_pairwise d ((valid_iff d).1 hd).2)).2 hk
  refine hp.eq_of_pairwise (le := fun a b => (a.id ≠ b.id → SeriesBefore c a.id b.id) ∧ (a.id = b.id → a.time < b.time)) ?_ ?_ ?_
  · intro a b _ _ h1 h2
    by_cases he : a.id = b.id
    · exact absurd (h1.2 he) (lt_asymm (h2.2 he.symm))
    · exact absurd (h1.1 he) (seriesBefore_asymm (h2.1 (Ne.symm he)))
  · rw [List.pairwise_map]
    exact h1.and ((valid_iff c).1 hc).2
  · rw [List.pairwise_map]
    exact h2.and ((valid_iff d).1 hd).2

/-- The index of the result equals that of the collection iff the series are stored by time. -/
theorem storedByTime_of_keys {c : List (Row Int V)} {d : List (Row Int W)} (h : c.map (·.key) = d.map (·.key))
    (h2 : d.Pairwise (fun r s => r.id ≠ s.id → SeriesBefore c r.id s.id)) : StoredByTime c := by
  have : (d.map (·.key)).Pairwise (fun a b => a.id ≠ b.id → SeriesBefore c a.id b.id) := by
    rw [List.pairwise_map]; exact h2
  rw [← h, List.pairwise_map] at this
  exact this

/-- The score call succeeds iff the indices agree. -/
theorem scoreCall_ok {n : Nat} (c d : List (Row Int (Fin n → ℝ))) : (∃ x, scoreCall .rmse .feature .minMax none .raw false c d = .ok x) ↔ c.map (·.key) = d.map (·.key) := by
  unfold scoreCall metricCall pairRows
  by_cases h : c.map (·.key) = d.map (·.key)
  · simp [h, metricBlocks, withWeights, blockMetric]
  · simp [h]

/-- **C176 (score).** Let the model have a score, and let `predict` return for every initial condition a collection of the same IDs in ascending order with the requested time values, in which the
series of ID `i` is `f i`. Then `score` returns a number iff the series of the collection are stored by first time value, last time value and ID (partial: it raises otherwise). The number is at most 0,
and 0 iff every series is predicted exactly. -/
theorem C176_score_partial {n : Nat} {cls : DmdClass} (hs : cls.setsScoring = true)
    {predict : List (Row Int (Fin n → ℝ)) → List Int → Except PredErr (List (Row Int (Fin n → ℝ)))} {k : TimeKind} {c : List (Row Int (Fin n → ℝ))} (hc : c ≠ []) (hv : Valid c) {δ : Int}
    (h : HasDeltas k c (fun _ => δ)) (f : Nat → List (Int × (Fin n → ℝ)))
    (hp : ∀ ic times, ic ≠ [] → Valid ic → (∀ i, HasId ic i → HasId c i ∧ content ic i = (content c i).take 1 ∧ times = (content c i).map (·.1)) →
      ∃ d, predict ic times = .ok d ∧ Valid d ∧ IdsAscending d ∧ (∀ i, HasId d i ↔ HasId ic i) ∧ ∀ i, HasId ic i → content d i = f i)
    (hf : ∀ i, HasId c i → (f i).map (·.1) = (content c i).map (·.1)) :
    ((∃ x, dmdScore cls predict k c = .ok x) ↔ StoredByTime c) ∧
      ∀ x, dmdScore cls predict k c = .ok x → x ≤ 0 ∧ (x = 0 ↔ ∀ i, HasId c i → f i = content c i) := by
  obtain ⟨d, hd, hvd, hid, hcont⟩ := C77_reconstruct (lift := PredErr.tsc) hc hv h f (fun ic times a b e => by
    obtain ⟨d, h1, h2, _, h4, h5⟩ := hp ic times a b e
    exact ⟨d, h1, h2, h4, h5⟩)
  have hord := reconstruct_order (lift := PredErr.tsc) hc hv h (fun ic times a b e => by
    obtain ⟨d, h1, h2, h3, h4, h5⟩ := hp ic times a b e
    exact ⟨d, h1, h3, h4⟩) hd
  have ht : ∀ i, HasId c i → (content d i).map (·.1) = (content c i).map (·.1) := fun i hi => by rw [hcont i hi, hf i hi]
  have hkeys : StoredByTime c ↔ c.map (·.key) = d.map (·.key) := ⟨fun hs => keys_of_storedByTime hv hvd hid ht hs hord, fun hk => storedByTime_of_keys hk hord⟩
  have hsc : ∀ x, dmdScore cls predict k c = .ok x ↔ scoreCall .rmse .feature .minMax none .raw false c d = .ok x := by
    intro x
    unfold dmdScore
    rw [if_pos hs, hd]
    dsimp only
    cases scoreCall .rmse .feature .minMax none .raw false c d <;> simp
  refine ⟨?_, ?_⟩
  · rw [hkeys, ← scoreCall_ok]
    simp only [hsc]
  · intro x hx
    rw [hsc] at hx
    obtain ⟨h1, h2⟩ := C63_score_partial .rmse (by decide) .feature .minMax (by decide) none (by simp) .raw (by simp) c d x hx
    refine ⟨h1, h2.trans ⟨?_, ?_⟩⟩
    · rintro rfl i hi
      exact (hcont i hi).symm
    · intro he
      have hk := (scoreCall_ok c d).1 ⟨x, hx⟩
      have hids : c.map (·.id) = d.map (·.id) := by simpa [Row.key, Function.comp_def] using congrArg (List.map Key.id) hk
      rw [← hv.eq_flatMap, ← hvd.eq_flatMap, hids]
      apply List.flatMap_congr
      intro i hi
      have hci : HasId c i := by
        rw [← hids, mem_newIds] at hi
        simpa [HasId] using hi
      have hcc := (hcont i hci).trans (he i hci)
      have hs : ∀ e : List (Row Int (Fin n → ℝ)), series e i = (content e i).map (fun p => ⟨i, p.1, p.2⟩) := by
        intro e
        unfold content
        rw [List.map_map]
        conv_lhs => rw [← List.map_id (series e i)]
        apply List.map_congr_left
        intro r hr
        have := (mem_series.1 hr).2
        cases r
        simp_all
      rw [hs, hs, hcc]

/-- **C176 (availability; violated).** For `PretrainedDMD`, `DMDControl`, `gDMDAffine`, `StreamingDMD` and `OnlineDMD`, `score` raises for every fitted model and every collection: their constructors never
set up the score ("Please report bug"). -/
theorem C176_unavailable_violated {n : Nat} {cls : DmdClass} (h : cls ∈ [DmdClass.pretrained, .control, .affine, .streaming, .online])
    (predict : List (Row Int (Fin n → ℝ)) → List Int → Except PredErr (List (Row Int (Fin n → ℝ)))) (k : TimeKind) (c : List (Row Int (Fin n → ℝ))) :
    dmdScore cls predict k c = .error .attributes := by
  cases cls <;> simp_all [dmdScore, DmdClass.setsScoring]

/-- Samples of `x' = 2 x`: three of series 0, two of series 1. -/
def exScore : List (Row Int (Fin 1 → ℝ)) := [⟨0, 0, ![1]⟩, ⟨0, 1, ![2]⟩, ⟨0, 2, ![4]⟩, ⟨1, 0, ![1]⟩, ⟨1, 1, ![2]⟩]

theorem exScore_valid : Valid exScore := by
  rw [valid_iff]; constructor
  · decide
  · simp [exScore, Before]

theorem exScore_deltas : HasDeltas .int exScore (fun _ => 1) := by
  apply hasDeltas_int (by simp [exScore]) exScore_valid
  · rintro i ⟨r, hr, rfl⟩
    simp only [exScore, List.mem_cons, List.not_mem_nil, or_false] at hr
    rcases hr with rfl | rfl | rfl | rfl | rfl <;> unfold Regular <;> decide

/-- **C176 (order; violated).** The data follow `x' = 2 x` and the model predicts with exactly this matrix, so that every series is reconstructed exactly; but `score` raises, because the shorter series 1
is reconstructed first and the index of the result is not that of the data. -/
theorem C176_order_violated : ∃ (c : List (Row Int (Fin 1 → ℝ))) (A : Matrix (Fin 1) (Fin 1) ℝ), Valid c ∧ IdsAscending c ∧ (∀ p ∈ snapshotPairs c, p.2 = A *ᵥ p.1) ∧
    (∃ r, reconstructWith PredErr.tsc (predictMatrix A 1) .int c = .ok r ∧ ∀ i, content r i = content c i) ∧ ¬ ∃ x, dmdScore .standard (predictMatrix A 1) .int c = .ok x := by
  have hA : ∀ p ∈ snapshotPairs exScore, p.2 = (!![2] : Matrix (Fin 1) (Fin 1) ℝ) *ᵥ p.1 := by
    have hp : snapshotPairs exScore = [(![1], ![2]), (![2], ![4]), (![1], ![2])] := rfl
    rw [hp]
    intro p hp
    simp only [List.mem_cons, List.not_mem_nil, or_false] at hp
    rcases hp with rfl | rfl | rfl <;> (ext i; fin_cases i; simp [Matrix.mulVec, dotProduct]; try norm_num)
  refine ⟨exScore, !![2], exScore_valid, by simp [IdsAscending, exScore], hA, ?_, ?_⟩
  · obtain ⟨r, h1, _, _, h4⟩ := C30_reconstruct (by simp [exScore]) exScore_valid exScore_deltas _ hA
    exact ⟨r, h1, h4⟩
  · intro h
    have := (C176_score_partial (cls := .standard) rfl (by simp [exScore]) exScore_valid exScore_deltas (content exScore)
      (fun ic times hne hvi hall => predictMatrix_linear exScore_valid exScore_deltas _ hA ic times hne hvi hall) (fun _ _ => rfl)).1.1 h
    have h2 := List.rel_of_pairwise_cons this (a' := ⟨1, 0, ![1]⟩) (by simp) (by simp)
    revert h2
    unfold SeriesBefore
    decide

/-- **C176 (exact data).** If the data follow a linear system, the score of the model with this system matrix is 0, provided that the series are stored by time. -/
theorem C176_exact_partial {n : Nat} {cls : DmdClass} (hs : cls.setsScoring = true) {k : TimeKind} {c : List (Row Int (Fin n → ℝ))} (hc : c ≠ []) (hv : Valid c) {δ : Int}
    (h : HasDeltas k c (fun _ => δ)) (A : Matrix (Fin n) (Fin n) ℝ) (hA : ∀ p ∈ snapshotPairs c, p.2 = A *ᵥ p.1) (ho : StoredByTime c) :
    dmdScore cls (predictMatrix A δ) k c = .ok 0 := by
  obtain ⟨h1, h2⟩ := C176_score_partial hs hc hv h (content c) (fun ic times hne hvi hall => predictMatrix_linear hv h A hA ic times hne hvi hall) (fun _ _ => rfl)
  obtain ⟨x, hx⟩ := h1.2 ho
  rw [hx, ((h2 x hx).2).2 (fun _ _ => rfl)]

/-- non-vacuity of `C176_exact_partial`: the same data with the IDs exchanged -/
example : StoredByTime ([⟨0, 0, ![1]⟩, ⟨0, 1, ![2]⟩, ⟨3, 0, ![1]⟩, ⟨3, 1, ![2]⟩, ⟨3, 2, ![4]⟩, ⟨1, 5, ![1]⟩, ⟨1, 6, ![2]⟩] : List (Row Int (Fin 1 → ℝ))) := by
  have ha : ∀ i, timesOf ([⟨0, 0, ![1]⟩, ⟨0, 1, ![2]⟩, ⟨3, 0, ![1]⟩, ⟨3, 1, ![2]⟩, ⟨3, 2, ![4]⟩, ⟨1, 5, ![1]⟩, ⟨1, 6, ![2]⟩] : List (Row Int (Fin 1 → ℝ))) i =
      if i = 0 then [0, 1] else if i = 3 then [0, 1, 2] else if i = 1 then [5, 6] else [] := by
    intro i
    by_cases h0 : i = 0
    · subst h0; rfl
    by_cases h3 : i = 3
    · subst h3; rfl
    by_cases h1 : i = 1
    · subst h1; rfl
    · simp [timesOf, series, h0, h3, h1, Ne.symm h0, Ne.symm h1, Ne.symm h3]
  unfold StoredByTime SeriesBefore
  simp only [ha]
  simp

end Verif.Dmd
