import Verif.Transform.SeriesProps
import Verif.Dmd.NoiseProps
/-! # C225 for predictions: every initial condition is predicted and every series reconstructed on its own -/

namespace Verif.Dmd

open Verif.Tsc Verif.Np Verif.Dyn Verif.Transform Matrix

variable {V : Type}

/-- Exactly the selected series of `r`. -/
def IsPicked {W : Type} (S : Nat → Bool) (r' r : List (Row Int W)) : Prop := Valid r' ∧ (∀ i, HasId r' i ↔ HasId r i ∧ S i) ∧ ∀ i, S i → content r' i = content r i

theorem hasDeltas_pick (S : Nat → Bool) {k : TimeKind} {c : List (Row Int V)} (hv : Valid c) {d : Int} (h : HasDeltas k c (fun _ => d)) (hne : pick S c ≠ []) : HasDeltas k (pick S c) (fun _ => d) := by
  have := regular_pick S (fun i hi => (h i hi).2)
  cases k with
  | int => exact hasDeltas_int hne (valid_pick S hv) this
  | datetime => exact hasDeltas_datetime hne (valid_pick S hv) this

/-- With the same time values in all series, the time values of the collection are those of any of its series. -/
theorem timeValues_same {c : List (Row Int V)} (hv : Valid c) (h : isSameTimeValues c = true) {i : Nat} (hi : HasId c i) : timeValues c = (content c i).map (·.1) := by
  have hc : c ≠ [] := by obtain ⟨r, hr, _⟩ := hi; exact List.ne_nil_of_mem hr
  have hs := (C10_same_time_values hc hv).1 h
  refine eq_of_pairwise_lt (unique_pairwise _) ?_ (fun t => ?_)
  · simp only [content, List.map_map, List.pairwise_map]
    exact hv.series_sorted i
  · rw [timeValues, mem_unique]
    constructor
    · intro ht
      obtain ⟨r, hr, rfl⟩ := List.mem_map.1 ht
      rw [hs i r.id hi ⟨r, hr, rfl⟩]
      exact List.mem_map.2 ⟨(r.time, r.val), List.mem_map.2 ⟨r, mem_series.2 ⟨hr, rfl⟩, rfl⟩, rfl⟩
    · intro ht
      simp only [content, List.map_map, List.mem_map] at ht
      obtain ⟨r, hr, rfl⟩ := ht
      exact List.mem_map.2 ⟨r, (mem_series.1 hr).1, rfl⟩

/-- Results determined series by series. -/
theorem isPicked_of {W : Type} (S : Nat → Bool) {c : List (Row Int V)} {r r' : List (Row Int W)} (hv : Valid r') (h3 : ∀ i, HasId r i ↔ HasId c i) (h3' : ∀ i, HasId r' i ↔ HasId (pick S c) i)
    (h : ∀ i, HasId c i → S i → content r' i = content r i) : IsPicked S r' r := by
  refine ⟨hv, fun i => by rw [h3', hasId_pick, h3], ?_⟩
  intro i hi
  by_cases hx : HasId c i
  · exact h i hx hi
  · have e1 : content r i = [] := by
      have : series r i = [] := by by_contra h; exact hx ((h3 i).1 (hasId_iff_series.2 h))
      simp [content, this]
    have e2 : content r' i = [] := by
      have : series r' i = [] := by by_contra h; exact hx ((hasId_pick S c i).1 ((h3' i).1 (hasId_iff_series.2 h))).1
      simp [content, this]
    rw [e1, e2]

theorem nodup_pick (S : Nat → Bool) {X : List (Row Int V)} (h : (X.map (·.id)).Nodup) : ((pick S X).map (·.id)).Nodup :=
  h.sublist (List.filter_sublist.map _)

section
variable {ι κ : Type} [Fintype ι] [DecidableEq ι] [Fintype κ]

/-- **C225 (predict).** Predicting selected initial conditions gives the selected predictions. -/
theorem C225_predict (S : Nat → Bool) (A : Matrix ι ι ℝ) (dt : Int) (X : List (Row Int (ι → ℝ))) (hnd : (X.map (·.id)).Nodup) (hne : pick S X ≠ []) {times : List Int} (ht : times ≠ []) (hs : times.Pairwise (· < ·)) :
    ∃ r r', predictMatrix A dt X times = .ok r ∧ predictMatrix A dt (pick S X) times = .ok r' ∧ IsPicked S r' r := by
  match times, ht with
  | t0 :: ts, _ =>
    have hX : X ≠ [] := pick_ne_nil S hne
    have go : ∀ Y : List (Row Int (ι → ℝ)), Y ≠ [] → (Y.map (·.id)).Nodup → ∃ d, predictMatrix A dt Y (t0 :: ts) = .ok d ∧ Valid d ∧ (∀ i, HasId d i ↔ HasId Y i) ∧
        ∀ y ∈ Y, content d y.id = (t0 :: ts).zip ((flowmapMatrix A [y.val] ((t0 :: ts).map (· - t0)) dt).headD []) := by
      intro Y hY hYn
      obtain ⟨d, hd, hv, -, hid, hc⟩ := evolveFrame_ok Y t0 ts (fun ics norm => flowmapMatrix A ics norm dt) hY hYn hs
        (by simp [flowmapMatrix]) (by intro s hs; simp only [flowmapMatrix, List.mem_map] at hs; obtain ⟨x, _, rfl⟩ := hs; simp)
      refine ⟨d, hd, hv, hid, ?_⟩
      intro y hy
      obtain ⟨k, hk, rfl⟩ := List.getElem_of_mem hy
      rw [hc k hk]
      simp [flowmapMatrix]
    obtain ⟨r, h1, h2, h3, h4⟩ := go X hX hnd
    obtain ⟨r', h1', h2', h3', h4'⟩ := go _ hne (nodup_pick S hnd)
    refine ⟨r, r', h1, h1', isPicked_of S h2' h3 h3' ?_⟩
    rintro i ⟨x, hx, rfl⟩ hi
    rw [h4 x hx, h4' x (List.mem_filter.2 ⟨hx, hi⟩)]

example : ∃ r r', predictMatrix (!![2] : Matrix (Fin 1) (Fin 1) ℝ) 1 [⟨4, 0, ![1]⟩, ⟨1, 0, ![3]⟩] [0, 2] = .ok r ∧
    predictMatrix (!![2] : Matrix (Fin 1) (Fin 1) ℝ) 1 (pick (· == 1) [⟨4, 0, ![1]⟩, ⟨1, 0, ![3]⟩]) [0, 2] = .ok r' ∧ IsPicked (· == 1) r' r :=
  C225_predict _ _ 1 _ (by decide) (by simp [pick]) (by simp) (by decide)

/-- **C225 (predict with control).** Predicting selected initial conditions with the control series of the same IDs gives the selected predictions. -/
theorem C225_predict_control (S : Nat → Bool) (A : Matrix ι ι ℝ) (B : Matrix ι κ ℝ) (X : List (Row Int (ι → ℝ))) (U : List (Row Int (κ → ℝ)))
    (hne : pick S X ≠ []) (hXU : X.map (·.id) = ids U) (hUv : Valid U) (hUa : IdsAscending U) (hsame : isSameTimeValues U = true)
    (t0 : Int) (hXt : ∀ r ∈ X, r.time = t0) (hUt : (timeValues U).head? = some t0)
    (n : Nat) (hn : ∀ i, HasId U i → (series U i).length = n) {times : List Int} (hts : times.Pairwise (· < ·)) (hlen : times.length = n + 1) :
    ∃ r r', predictControlled A B X U times = .ok r ∧ predictControlled A B (pick S X) (pick S U) times = .ok r' ∧ IsPicked S r' r := by
  have hX : X ≠ [] := pick_ne_nil S hne
  have hids : (pick S X).map (·.id) = ids (pick S U) := by
    rw [ids_pick, ← hXU]; unfold pick; rw [List.filter_map]; rfl
  have hUne : pick S U ≠ [] := by
    intro h; rw [h] at hids; exact hne (by simpa using hids.trans (show ids ([] : List (Row Int (κ → ℝ))) = [] from rfl))
  have hU : U ≠ [] := pick_ne_nil S hUne
  have hsame' : isSameTimeValues (pick S U) = true := by
    rw [C10_same_time_values hUne (valid_pick S hUv)]
    intro i j hi hj
    obtain ⟨hi1, hi2⟩ := (hasId_pick S U i).1 hi
    obtain ⟨hj1, hj2⟩ := (hasId_pick S U j).1 hj
    rw [content_pick S U hi2, content_pick S U hj2]
    exact (C10_same_time_values hU hUv).1 hsame i j hi1 hj1
  have htv : timeValues (pick S U) = timeValues U := by
    obtain ⟨r, hr⟩ := List.exists_mem_of_ne_nil _ hUne
    have hi : HasId (pick S U) r.id := ⟨r, hr, rfl⟩
    obtain ⟨hi1, hi2⟩ := (hasId_pick S U r.id).1 hi
    rw [timeValues_same (valid_pick S hUv) hsame' hi, timeValues_same hUv hsame hi1, content_pick S U hi2]
  match times, hlen with
  | s0 :: ts, hlen =>
    have hn' : ∀ i, HasId U i → (vals U i).length = n := fun i hi => by rw [vals, content]; simpa using hn i hi
    obtain ⟨r, h1, h2, h3, h4⟩ := C28_controlled A B X U hX hXU hUv hUa hsame t0 hXt hUt n hn' s0 ts hts (by simpa using hlen)
    obtain ⟨r', h1', h2', h3', h4'⟩ := C28_controlled A B (pick S X) (pick S U) hne hids (valid_pick S hUv) (hUa.sublist (List.filter_sublist.map _)) hsame' t0
      (fun x hx => hXt x (List.mem_filter.1 hx).1) (by rw [htv]; exact hUt) n (by
        intro i hi
        obtain ⟨hi1, hi2⟩ := (hasId_pick S U i).1 hi
        rw [vals, content_pick S U hi2]; exact hn' i hi1) s0 ts hts (by simpa using hlen)
    refine ⟨r, r', h1, h1', isPicked_of S h2' h3 h3' ?_⟩
    rintro i ⟨x, hx, rfl⟩ hi
    rw [h4 x hx, h4' x (List.mem_filter.2 ⟨hx, hi⟩), vals, vals, content_pick S U hi]

example : ∃ r r', predictControlled (!![2] : Matrix (Fin 1) (Fin 1) ℝ) !![1] [⟨1, 0, ![1]⟩, ⟨4, 0, ![3]⟩] [⟨1, 0, ![5]⟩, ⟨4, 0, ![6]⟩] [0, 2] = .ok r ∧
    predictControlled (!![2] : Matrix (Fin 1) (Fin 1) ℝ) !![1] (pick (· == 4) [⟨1, 0, ![1]⟩, ⟨4, 0, ![3]⟩]) (pick (· == 4) [⟨1, 0, ![5]⟩, ⟨4, 0, ![6]⟩]) [0, 2] = .ok r' ∧ IsPicked (· == 4) r' r :=
  C225_predict_control _ _ _ _ _ (by simp [pick]) (by simp; decide +kernel) (by rw [valid_iff]; exact ⟨by decide, by unfold Before; decide +kernel⟩) (by unfold IdsAscending; decide) (by with_unfolding_all rfl)
    0 (by simp) (by with_unfolding_all rfl) 1 (by rintro i ⟨r, hr, rfl⟩; simp at hr; rcases hr with rfl | rfl <;> rfl) (by decide) rfl


/-- **C225 (reconstruct).** Reconstructing selected time series gives the selected reconstructions. -/
theorem C225_reconstruct (S : Nat → Bool) (A : Matrix ι ι ℝ) {k : TimeKind} {c : List (Row Int (ι → ℝ))} (hv : Valid c) {d : Int} (hd : HasDeltas k c (fun _ => d)) (hne : pick S c ≠ []) :
    ∃ r r', reconstructWith PredErr.tsc (predictMatrix A d) k c = .ok r ∧ reconstructWith PredErr.tsc (predictMatrix A d) k (pick S c) = .ok r' ∧ IsPicked S r' r := by
  have go : ∀ c : List (Row Int (ι → ℝ)), Valid c → HasDeltas k c (fun _ => d) → c ≠ [] → ∃ r, reconstructWith PredErr.tsc (predictMatrix A d) k c = .ok r ∧ Valid r ∧ (∀ i, HasId r i ↔ HasId c i) ∧
      ∀ i, HasId c i → content r i = ((content c i).map (·.1)).zip ((List.range (content c i).length).map (fun n => (A ^ n) *ᵥ sample c i 0)) := by
    intro c hv hd hc
    refine C77_reconstruct (lift := PredErr.tsc) (predict := predictMatrix A d) hc hv hd
      (fun i => ((content c i).map (·.1)).zip ((List.range (content c i).length).map (fun n => (A ^ n) *ᵥ sample c i 0))) ?_
    intro ic times hne hvi hall
    obtain ⟨r, r1, r2, _, r4, r5⟩ := predictMatrix_first hv hd A ic times hne hvi hall
    exact ⟨r, r1, r2, r4, r5⟩
  obtain ⟨r, h1, h2, h3, h4⟩ := go c hv hd (pick_ne_nil S hne)
  obtain ⟨r', h1', h2', h3', h4'⟩ := go _ (valid_pick S hv) (hasDeltas_pick S hv hd hne) hne
  refine ⟨r, r', h1, h1', isPicked_of S h2' h3 h3' ?_⟩
  intro i hx hi
  rw [h4 i hx, h4' i ((hasId_pick S c i).2 ⟨hx, hi⟩), content_pick S c hi]
  unfold sample
  rw [series_pick, if_pos hi]

example : ∃ r r', reconstructWith PredErr.tsc (predictMatrix (!![2] : Matrix (Fin 1) (Fin 1) ℝ) 1) .int [⟨1, 0, ![1]⟩, ⟨1, 1, ![2]⟩, ⟨4, 5, ![3]⟩, ⟨4, 6, ![7]⟩] = .ok r ∧
    reconstructWith PredErr.tsc (predictMatrix (!![2] : Matrix (Fin 1) (Fin 1) ℝ) 1) .int (pick (· == 4) [⟨1, 0, ![1]⟩, ⟨1, 1, ![2]⟩, ⟨4, 5, ![3]⟩, ⟨4, 6, ![7]⟩]) = .ok r' ∧ IsPicked (· == 4) r' r := by
  have hv : Valid (V := Fin 1 → ℝ) (τ := Int) [⟨1, 0, ![1]⟩, ⟨1, 1, ![2]⟩, ⟨4, 5, ![3]⟩, ⟨4, 6, ![7]⟩] := by rw [valid_iff]; exact ⟨by decide, by unfold Before; decide +kernel⟩
  exact C225_reconstruct _ _ hv (hasDeltas_int (by simp) hv (by
    rintro i ⟨r, hr, rfl⟩
    simp only [List.mem_cons, List.not_mem_nil, or_false] at hr
    rcases hr with rfl | rfl | rfl | rfl <;> exact ⟨by decide +kernel, by decide +kernel⟩)) (by simp [pick])


end

end Verif.Dmd
