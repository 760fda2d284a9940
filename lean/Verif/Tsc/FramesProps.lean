import Verif.Tsc.Frames
import Verif.Tsc.CheckProps
import Verif.Tsc.CollProps
import Verif.Tsc.StatesProps
import Verif.Tsc.InitCondProps
import Verif.Tsc.TimeOpsProps
import Verif.Tsc.MetricProps
import Mathlib.Data.Finset.Card
import Mathlib.Data.Finset.Dedup
/-! # Properties of frame lists, inserted frames and initial conditions (C125-C127) -/

namespace Verif.Tsc

open Verif.Np

variable {τ V : Type} [LinearOrder τ]

/-! ## C125 from_frame_list -/

/-- The time series in a list of frames: a collection contributes its series in increasing order of their IDs. -/
def listedSeries : List (List (Row τ V) ⊕ List (τ × V)) → List (List (τ × V))
  | [] => []
  | .inl c :: l => (ids c).map (content c) ++ listedSeries l
  | .inr df :: l => df :: listedSeries l

theorem listedSeries_eq (l : List (List (Row τ V) ⊕ List (τ × V))) :
    l.flatMap (fun
      | .inl c => (itertimeseries c).map (·.2)
      | .inr df => [df]) = listedSeries l := by
  induction l with
  | nil => rfl
  | cons x l ih =>
    rw [List.flatMap_cons, ih]
    cases x with
    | inl c => simp only [listedSeries, itertimeseries, List.map_map]; rfl
    | inr df => rfl

theorem unique_length_eq_iff (l : List Nat) : (unique l).length = l.length ↔ l.Nodup := by
  have h1 : (unique l).toFinset = l.toFinset := by ext; simp [mem_unique]
  have h2 := List.toFinset_card_of_nodup (unique_nodup l)
  rw [h1] at h2
  rw [← h2]
  exact Multiset.toFinset_card_eq_card_iff_nodup (m := (l : Multiset Nat))

/-- Rows of the series `f` with ID `i`. -/
def rowsOf (i : Nat) (f : List (τ × V)) : List (Row τ V) := f.map (fun q => ⟨i, q.1, q.2⟩)

theorem rowsOf_valid (i : Nat) (f : List (τ × V)) : Valid (rowsOf i f) ↔ (f.map (·.1)).Pairwise (· < ·) := by
  have := append_block_valid (c := ([] : List (Row τ V))) (i := i) ((valid_iff _).2 (by simp [newIds])) (by simp [HasId]) f
  simpa [rowsOf] using this

theorem blocks_by_id (is : List Nat) (fs : List (List (τ × V))) (hn : is.Nodup) (hl : is.length = fs.length) :
    ∃ g : Nat → List (τ × V), (is.zip fs).map (fun p => rowsOf p.1 p.2) = is.map (fun i => rowsOf i (g i)) ∧ is.map g = fs := by
  refine ⟨fun i => (fs[is.idxOf i]?).getD [], ?_⟩
  have hg : is.map (fun i => (fs[is.idxOf i]?).getD []) = fs := by
    apply List.ext_getElem (by simpa using hl)
    intro n h1 h2
    rw [List.getElem_map, hn.idxOf_getElem]
    simp [h2]
  refine ⟨?_, hg⟩
  generalize (fun i => (fs[is.idxOf i]?).getD []) = g at hg
  subst hg
  rw [zip_map_self, List.map_map]
  rfl

/-- **C125.** `from_frame_list` succeeds iff there is a time series in the list, the IDs (if given) are distinct and as many as there are time series, and each time series has
samples at increasing time values. The result is valid, and contains the listed time series in their order: the `k`-th one has the `k`-th ID (by default the number `k`). -/
theorem C125_frame_list (l : List (List (Row τ V) ⊕ List (τ × V))) (tsIds : Option (List Nat)) :
    ((∃ d, fromFrameList l tsIds = .ok d) ↔ listedSeries l ≠ [] ∧ (∀ is, tsIds = some is → is.Nodup ∧ is.length = (listedSeries l).length) ∧
      ∀ f ∈ listedSeries l, f ≠ [] ∧ (f.map (·.1)).Pairwise (· < ·)) ∧
    (∀ d, fromFrameList l tsIds = .ok d → Valid d ∧ newIds (d.map (·.id)) = tsIds.getD (List.range (listedSeries l).length) ∧
      (newIds (d.map (·.id))).map (content d) = listedSeries l) := by
  have hE : fromFrameList l tsIds = if l.isEmpty then .error .emptyList
      else if (tsIds.getD (List.range (listedSeries l).length)).length ≠ (listedSeries l).length ∨
        (unique (tsIds.getD (List.range (listedSeries l).length))).length ≠ (listedSeries l).length then .error .idsNotUnique
      else match ((tsIds.getD (List.range (listedSeries l).length)).zip (listedSeries l)).mapM (fun p => build (rowsOf p.1 p.2)) with
        | .error e => .error e
        | .ok parts => build parts.flatten := by
    rw [← listedSeries_eq]
    rfl
  have hids : (∀ is, tsIds = some is → is.Nodup ∧ is.length = (listedSeries l).length) ↔
      (tsIds.getD (List.range (listedSeries l).length)).Nodup ∧ (tsIds.getD (List.range (listedSeries l).length)).length = (listedSeries l).length := by
    cases tsIds with
    | none => simp [List.nodup_range]
    | some is => simp
  rw [hE, hids]
  have hnil : l = [] → listedSeries l = [] := by rintro rfl; rfl
  generalize hfs : listedSeries l = fs at *
  generalize tsIds.getD (List.range fs.length) = is
  have hbad : (is.length ≠ fs.length ∨ (unique is).length ≠ fs.length) ↔ ¬ (is.Nodup ∧ is.length = fs.length) := by
    rw [← unique_length_eq_iff]
    omega
  by_cases hl : l = []
  · simp [hl, hnil hl]
  rw [if_neg (by simpa using hl)]
  by_cases hi : is.Nodup ∧ is.length = fs.length
  swap
  · rw [if_pos (hbad.2 hi)]
    simp [hi]
  rw [if_neg (by rw [hbad]; simpa using hi)]
  obtain ⟨hn, hlen⟩ := hi
  obtain ⟨g, hg1, hg2⟩ := blocks_by_id is fs hn hlen
  have hzip : is.zip fs = is.map (fun i => (i, g i)) := by rw [← hg2, zip_map_self]
  have hrow : ∀ i : Nat, (∃ x, build (rowsOf i (g i)) = .ok x) ↔ g i ≠ [] ∧ ((g i).map (·.1)).Pairwise (· < ·) := by
    intro i
    rw [← rowsOf_valid i]
    constructor
    · rintro ⟨x, hx⟩
      obtain ⟨-, h1, h2⟩ := build_ok_iff.1 hx
      exact ⟨by simpa [rowsOf] using h1, h2⟩
    · rintro ⟨h1, h2⟩
      exact ⟨_, build_ok_of_valid h2 (by simpa [rowsOf] using h1)⟩
  have hmem : (∀ f ∈ fs, f ≠ [] ∧ (f.map (·.1)).Pairwise (· < ·)) ↔ ∀ i ∈ is, g i ≠ [] ∧ ((g i).map (·.1)).Pairwise (· < ·) := by
    rw [← hg2]; simp
  by_cases hok : ∀ i ∈ is, g i ≠ [] ∧ ((g i).map (·.1)).Pairwise (· < ·)
  swap
  · -- some single frame is rejected
    have herr : ∀ parts, (is.zip fs).mapM (fun p => build (rowsOf p.1 p.2)) ≠ .ok parts := by
      intro parts h
      apply hok
      intro i hi
      obtain ⟨n, hn'⟩ := List.mem_iff_getElem?.1 hi
      obtain ⟨v, -, hv⟩ := (mapM_ok_get _ _ _ h).2 n (i, g i) (by rw [hzip]; simp [hn'])
      exact (hrow i).1 ⟨v, hv⟩
    match hm : (is.zip fs).mapM (fun p => build (rowsOf p.1 p.2)) with
    | .ok parts => exact absurd hm (herr parts)
    | .error e =>
      rw [hm]
      refine ⟨⟨(by rintro ⟨d, hd⟩; cases hd), fun h => absurd (hmem.1 h.2.2) hok⟩, fun d hd => by cases hd⟩
  · have hm : (is.zip fs).mapM (fun p => build (rowsOf p.1 p.2)) = .ok (is.map (fun i => rowsOf i (g i))) := by
      rw [mapM_ok_map _ (fun p => rowsOf p.1 p.2) _ ?_, hg1]
      intro a ha
      rw [hzip] at ha
      obtain ⟨i, hi, rfl⟩ := List.mem_map.1 ha
      have := hok i hi
      exact build_ok_of_valid ((rowsOf_valid _ _).2 this.2) (by simpa [rowsOf] using this.1)
    rw [hm]
    have hf : (is.map (fun i => rowsOf i (g i))).flatten = is.flatMap (fun i => rowsOf i (g i)) := rfl
    have hid : ∀ i ∈ is, ∀ r ∈ rowsOf i (g i), r.id = i := by
      intro i _ r hr
      obtain ⟨q, -, rfl⟩ := List.mem_map.1 hr
      rfl
    have hne : ∀ i ∈ is, rowsOf i (g i) ≠ [] := fun i hi => by simpa [rowsOf] using (hok i hi).1
    have hv : Valid (is.flatMap (fun i => rowsOf i (g i))) :=
      valid_flatMap hn _ hid (fun i hi => by
        have := (hok i hi).2
        rw [List.pairwise_map] at this
        rw [rowsOf, List.pairwise_map]
        exact this)
    have hnew := newIds_flatMap hn _ hid hne
    constructor
    · constructor
      · rintro ⟨d, hd⟩
        obtain ⟨rfl, h1, -⟩ := build_ok_iff.1 hd
        refine ⟨?_, ⟨hn, hlen⟩, hmem.2 hok⟩
        rintro rfl
        rw [List.length_nil, List.length_eq_zero_iff] at hlen
        subst hlen
        simp at h1
      · rintro ⟨h1, -⟩
        refine ⟨_, build_ok_of_valid hv ?_⟩
        rw [hf]
        cases is with
        | nil => simp at hg2; exact absurd hg2 h1
        | cons i is => simpa using fun h => absurd h (hne i (by simp))
    · intro d hd
      obtain ⟨rfl, h1, -⟩ := build_ok_iff.1 hd
      refine ⟨hv, hnew, ?_⟩
      rw [hf, hnew, ← hg2]
      apply List.map_congr_left
      intro i hi
      rw [content, series_flatMap hn _ hid, if_pos hi]
      simp [rowsOf, Function.comp_def]

example : fromFrameList [.inl ([⟨4, 0, 1⟩, ⟨4, 1, 2⟩, ⟨2, 0, 3⟩] : List (Row Nat Nat)), .inr [(5, 7)]] (some [9, 3, 6]) =
    .ok [⟨9, 0, 3⟩, ⟨3, 0, 1⟩, ⟨3, 1, 2⟩, ⟨6, 5, 7⟩] := by rfl
example : fromFrameList [.inl ([⟨4, 0, 1⟩, ⟨4, 1, 2⟩, ⟨2, 0, 3⟩] : List (Row Nat Nat)), .inr [(5, 7)]] (some [9, 6]) = .error .idsNotUnique := by rfl

/-- **C125 (single series).** `from_single_timeseries` succeeds iff the ID (if given) is not negative and the frame has samples at distinct time values (in any order). The result is one series
with that ID (by default 0), with the same samples in the order of time. -/
theorem C125_single (df : List (τ × V)) (tsId : Option Int) :
    ((∃ d, fromSingle df tsId = .ok d) ↔ (∀ i, tsId = some i → 0 ≤ i) ∧ df ≠ [] ∧ (df.map (·.1)).Nodup) ∧
    (∀ d, fromSingle df tsId = .ok d → Valid d ∧ (∀ j, HasId d j ↔ (j : Int) = tsId.getD 0) ∧ (content d (tsId.getD 0).toNat).Perm df ∧ d.length = df.length) := by
  have hs : (∀ i, tsId = some i → 0 ≤ i) ↔ 0 ≤ tsId.getD 0 := by cases tsId <;> simp
  rw [hs]
  unfold fromSingle
  simp only
  generalize tsId.getD 0 = i
  by_cases hi : i < 0
  · rw [if_pos hi]
    exact ⟨⟨fun ⟨d, hd⟩ => by simp at hd, fun h => by omega⟩, fun d hd => by simp at hd⟩
  rw [if_neg hi]
  have hperm : (df.mergeSort (fun a b => decide (a.1 ≤ b.1))).Perm df := List.mergeSort_perm _ _
  have hsort : (df.mergeSort (fun a b => decide (a.1 ≤ b.1))).Pairwise (fun a b => a.1 ≤ b.1) := by
    have := List.pairwise_mergeSort (le := fun a b : τ × V => decide (a.1 ≤ b.1)) (fun a b c h1 h2 => by simp at *; exact h1.trans h2)
      (fun a b => by simp; exact le_total a.1 b.1) df
    simpa using this
  generalize df.mergeSort (fun a b => decide (a.1 ≤ b.1)) = s at hperm hsort
  have hrows : (s.map fun p => (⟨i.toNat, p.1, p.2⟩ : Row τ V)) = rowsOf i.toNat s := rfl
  rw [hrows]
  have hlt : (s.map (·.1)).Pairwise (· < ·) ↔ (df.map (·.1)).Nodup := by
    rw [← (hperm.map (·.1)).nodup_iff]
    constructor
    · intro h
      exact h.imp (fun h => h.ne)
    · intro h
      rw [List.pairwise_map]
      rw [List.Nodup, List.pairwise_map] at h
      exact (hsort.and h).imp (fun h => lt_of_le_of_ne h.1 h.2)
  have hne : rowsOf i.toNat s ≠ [] ↔ df ≠ [] := by
    rw [rowsOf, Ne, List.map_eq_nil_iff, Ne, ← List.length_eq_zero_iff, ← List.length_eq_zero_iff, hperm.length_eq]
  constructor
  · constructor
    · rintro ⟨d, hd⟩
      obtain ⟨-, h1, h2⟩ := build_ok_iff.1 hd
      exact ⟨by omega, hne.1 h1, hlt.1 ((rowsOf_valid _ _).1 h2)⟩
    · rintro ⟨-, h1, h2⟩
      exact ⟨_, build_ok_of_valid ((rowsOf_valid _ _).2 (hlt.2 h2)) (hne.2 h1)⟩
  · intro d hd
    obtain ⟨rfl, h1, h2⟩ := build_ok_iff.1 hd
    refine ⟨h2, ?_, ?_, ?_⟩
    · intro j
      constructor
      · rintro ⟨r, hr, rfl⟩
        obtain ⟨q, -, rfl⟩ := List.mem_map.1 hr
        simp only
        omega
      · intro hj
        obtain ⟨r, l, hr⟩ := List.ne_nil_iff_exists_cons.1 h1
        have hr : r ∈ rowsOf i.toNat s := by rw [hr]; simp
        refine ⟨r, hr, ?_⟩
        obtain ⟨q, -, rfl⟩ := List.mem_map.1 hr
        simp only
        omega
    · have := content_mk_same i.toNat s
      rw [show content (rowsOf i.toNat s) i.toNat = s from this]
      exact hperm
    · rw [rowsOf, List.length_map, hperm.length_eq]

/-! ## C126 insert_ts -/

/-- The samples of a frame, in order. -/
def samplesOf (f : Frame τ V) : List (τ × V) :=
  match f with
  | .plain df => df
  | .tsc c => c.map (fun r => (r.time, r.val))
  | .multi df => df.map (·.2)

theorem insertTs_eq (c : List (Row τ V)) (df : List (τ × V)) (tsId : Option Int) :
    insertTs c df tsId = if (ids c).any (fun j => (j : Int) == insertId c tsId) then .error .idExists
      else if insertId c tsId < 0 then .error (.index .negativeId)
      else build (c ++ df.map (fun p => ⟨(insertId c tsId).toNat, p.1, p.2⟩)) := by
  cases tsId <;> rfl

/-- **C126 (part).** Inserting a frame with a time index, or a collection, gives the collection that `insertTs` describes (C05): the samples of the frame become one new time series. -/
theorem C126_result_partial {c : List (Row τ V)} (hv : Valid c) (f : Frame τ V) (hf : ∀ l, f ≠ .multi l) (hne : samplesOf f ≠ []) (tsId : Option Int) (d : List (Row τ V)) :
    (insertFrame c f tsId).1 = .ok d ↔ insertTs c (samplesOf f) tsId = .ok d := by
  rw [insertTs_eq]
  unfold insertFrame
  simp only
  generalize insertId c tsId = i
  by_cases h : (ids c).any (fun j => (j : Int) == i) = true
  · rw [if_pos h, if_pos h]
  · rw [if_neg h, if_neg h]
    match f, hf with
    | .plain l, _ =>
      by_cases hi : i < 0
      · simp [hi]
      · simp [hi, samplesOf]
    | .multi l, hf => exact absurd rfl (hf l)
    | .tsc l, _ =>
      by_cases hi : i < 0
      · simp [hi]
      · simp only [hi, if_false, samplesOf, List.map_map]
        have hh : ¬ HasId c i.toNat := by
          intro hh
          apply h
          rw [List.any_eq_true]
          exact ⟨i.toNat, mem_ids.2 hh, by simp; omega⟩
        have hrows : l.map (fun r => ({ r with id := i.toNat } : Row τ V)) = rowsOf i.toNat (l.map (fun r => (r.time, r.val))) := by
          simp [rowsOf, Function.comp_def]
        have hcomp : l.map ((fun p : τ × V => (⟨i.toNat, p.1, p.2⟩ : Row τ V)) ∘ fun r => (r.time, r.val)) = rowsOf i.toNat (l.map (fun r => (r.time, r.val))) := by
          simp [rowsOf, Function.comp_def]
        rw [hrows, hcomp]
        by_cases hval : ((l.map (fun r => (r.time, r.val))).map (·.1)).Pairwise (· < ·)
        · rw [build_ok_of_valid ((rowsOf_valid _ _).2 hval) (by simpa [rowsOf, samplesOf] using hne)]
        · have h1 : ∀ x, build (rowsOf i.toNat (l.map (fun r => (r.time, r.val)))) ≠ .ok x := by
            intro x hx
            exact hval ((rowsOf_valid _ _).1 (build_ok_iff.1 hx).2.2)
          have h2 : build (c ++ rowsOf i.toNat (l.map (fun r => (r.time, r.val)))) ≠ .ok d := by
            intro hx
            exact hval ((append_block_valid hv hh _).1 (build_ok_iff.1 hx).2.2)
          match hb : build (rowsOf i.toNat (l.map (fun r => (r.time, r.val)))) with
          | .ok x => exact absurd hb (h1 x)
          | .error e =>
            rw [hb]
            simpa using h2

/-- **C126 (violated: the argument changes).** A successful insertion of a frame with a time index changes that frame: it has a second index level afterwards. No collection accepts
the frame again. -/
theorem C126_argument_violated {c d : List (Row τ V)} {df : List (τ × V)} {tsId : Option Int} (h : (insertFrame c (.plain df) tsId).1 = .ok d) :
    ∃ g, (insertFrame c (.plain df) tsId).2 = .multi g ∧ g.map (·.2) = df ∧ ∀ (c' : List (Row τ V)) (i : Option Int), ∃ e, (insertFrame c' (.multi g) i).1 = .error e := by
  unfold insertFrame at h ⊢
  simp only at h ⊢
  generalize insertId c tsId = i at h ⊢
  by_cases hany : (ids c).any (fun j => (j : Int) == i) = true
  · rw [if_pos hany] at h
    simp at h
  · rw [if_neg hany]
    refine ⟨df.map (fun p => (i, p.1, p.2)), by split <;> rfl, by simp [Function.comp_def], ?_⟩
    intro c' i'
    generalize insertId c' i' = k
    by_cases hany' : (ids c').any (fun j => (j : Int) == k) = true
    · exact ⟨.idExists, by rw [if_pos hany']⟩
    · exact ⟨.incompatible, by rw [if_neg hany']⟩

/-- **C126 (violated: the IDs of the argument change).** After a successful insertion of a collection, all samples of the inserted collection have the new ID. -/
theorem C126_ids_violated {c d a : List (Row τ V)} {tsId : Option Int} (h : (insertFrame c (.tsc a) tsId).1 = .ok d) :
    ∃ b i, (insertFrame c (.tsc a) tsId).2 = .tsc b ∧ ¬ HasId c i ∧ (∀ k, tsId = some k → (i : Int) = k) ∧ b = a.map (fun r => ⟨i, r.time, r.val⟩) := by
  unfold insertFrame at h ⊢
  simp only at h ⊢
  generalize hi : insertId c tsId = i at h ⊢
  by_cases hany : (ids c).any (fun j => (j : Int) == i) = true
  · rw [if_pos hany] at h
    simp at h
  · rw [if_neg hany] at h ⊢
    by_cases hneg : i < 0
    · rw [if_pos hneg] at h
      simp at h
    · rw [if_neg hneg] at h ⊢
      refine ⟨_, i.toNat, ?_, ?_, ?_, rfl⟩
      · match hb : build (a.map (fun r => ({ r with id := i.toNat } : Row τ V))) with
        | .ok x =>
          obtain ⟨rfl, -⟩ := build_ok_iff.1 hb
          rw [hb]
        | .error e => rw [hb] at h; simp at h
      · intro hh
        apply hany
        rw [List.any_eq_true]
        exact ⟨i.toNat, mem_ids.2 hh, by simp; omega⟩
      · rintro k rfl
        simp only [insertId, Option.getD_some] at hi
        omega

/-- **C126 (violated: two series become one).** A collection of two time series is accepted and merged into a single time series, if the second one starts after the end of the first. -/
theorem C126_merge_violated : ∃ (c a d : List (Row Int Nat)), Valid c ∧ Valid a ∧ ids a = [3, 7] ∧ (insertFrame c (.tsc a) none).1 = .ok d ∧
    content d 1 = [(0, 10), (1, 11), (5, 12), (6, 13)] :=
  ⟨[⟨0, 0, 1⟩, ⟨0, 1, 2⟩], [⟨3, 0, 10⟩, ⟨3, 1, 11⟩, ⟨7, 5, 12⟩, ⟨7, 6, 13⟩], _, (valid_iff _).2 (by unfold Before; decide), (valid_iff _).2 (by unfold Before; decide), by decide, rfl, by decide⟩

example : insertFrame ([⟨0, 0, 1⟩] : List (Row Int Nat)) (.plain [(2, 5)]) none = (.ok [⟨0, 0, 1⟩, ⟨1, 2, 5⟩], .multi [(1, 2, 5)]) := by rfl

end Verif.Tsc
