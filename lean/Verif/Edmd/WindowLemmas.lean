import Verif.Edmd.Window
import Verif.Edmd.ReconstructProps
import Verif.Tsc.WindowProps
import Verif.Tsc.FramesProps
/-! # Lemmas on written indices and on windows -/

namespace Verif.Edmd

open Verif.Tsc Verif.Np

variable {V W P : Type}

theorem ascending_flatMap {is : List Nat} (hs : is.Pairwise (· < ·)) (f : Nat → List (Row Int V)) (hf : ∀ i ∈ is, ∀ r ∈ f i, r.id = i) : IdsAscending (is.flatMap f) := by
  unfold IdsAscending
  induction is with
  | nil => simp
  | cons a l ih =>
    rw [List.pairwise_cons] at hs
    rw [List.flatMap_cons, List.map_append, List.pairwise_append]
    refine ⟨?_, ih hs.2 (fun i hi => hf i (by simp [hi])), ?_⟩
    · rw [List.pairwise_map]
      exact List.Pairwise.imp_of_mem (R := fun _ _ => True) (fun {x y} hx hy _ => by rw [hf a (by simp) x hx, hf a (by simp) y hy]) (List.pairwise_of_forall (fun _ _ => trivial))
    · intro x hx y hy
      obtain ⟨r, hr, rfl⟩ := List.mem_map.1 hx
      obtain ⟨r', hr', rfl⟩ := List.mem_map.1 hy
      obtain ⟨b, hb, hr'⟩ := List.mem_flatMap.1 hr'
      rw [hf a (by simp) r hr, hf b (by simp [hb]) r' hr']
      exact (hs.1 b hb).le

theorem eq_flatMap_ids {c : List (Row Int V)} (hv : Valid c) (ha : IdsAscending c) : (ids c).flatMap (series c) = c := by
  rw [← newIds_eq_ids ha, hv.eq_flatMap]

/-- Writing, series by series, increasing time values of the right number into the index. -/
theorem writeIndex_ok {c : List (Row Int V)} (hc : c ≠ []) (hv : Valid c) (ha : IdsAscending c) (kb : Nat → List Int) (hl : ∀ i, HasId c i → (kb i).length = (series c i).length)
    (hinc : ∀ i, HasId c i → (kb i).Pairwise (· < ·)) :
    ∃ d, writeIndex c ((ids c).flatMap (fun i => (kb i).map (fun t => (⟨i, t⟩ : Key Int)))) = .ok d ∧ d ≠ [] ∧ Valid d ∧ IdsAscending d ∧ (∀ i, HasId d i ↔ HasId c i) ∧
      (∀ i, HasId c i → content d i = (kb i).zip ((series c i).map (·.val))) ∧ ∀ i, HasId c i → timesOf d i = kb i := by
  have hblock : ∀ i ∈ ids c, (series c i).length = ((kb i).map (fun t => (⟨i, t⟩ : Key Int))).length := by
    intro i hi; rw [List.length_map, hl i (mem_ids.1 hi)]
  have hzip : List.zipWith (fun (r : Row Int V) (key : Key Int) => (⟨key.id, key.time, r.val⟩ : Row Int V)) c ((ids c).flatMap (fun i => (kb i).map (fun t => (⟨i, t⟩ : Key Int)))) =
      (ids c).flatMap (fun i => List.zipWith (fun (r : Row Int V) (key : Key Int) => (⟨key.id, key.time, r.val⟩ : Row Int V)) (series c i) ((kb i).map (fun t => (⟨i, t⟩ : Key Int)))) := by
    conv => lhs; arg 2; rw [← eq_flatMap_ids hv ha]
    exact zipWith_flatMap _ _ _ _ hblock
  have hlen : c.length = ((ids c).flatMap (fun i => (kb i).map (fun t => (⟨i, t⟩ : Key Int)))).length := by
    conv => lhs; rw [← eq_flatMap_ids hv ha]
    rw [List.length_flatMap, List.length_flatMap]
    congr 1
    exact List.map_congr_left hblock
  have hk : ∀ i, ∀ k ∈ (kb i).map (fun t => (⟨i, t⟩ : Key Int)), k.id = i := by
    intro i k hk
    obtain ⟨t, -, rfl⟩ := List.mem_map.1 hk
    rfl
  have hzk := fun i (hi : i ∈ ids c) => zipWith_keys (series c i) _ (hblock i hi) i (hk i)
  generalize hout : (ids c).flatMap (fun i => List.zipWith (fun (r : Row Int V) (key : Key Int) => (⟨key.id, key.time, r.val⟩ : Row Int V)) (series c i)
    ((kb i).map (fun t => (⟨i, t⟩ : Key Int)))) = out at hzip
  have hser : ∀ i, HasId c i → series out i = List.zipWith (fun (r : Row Int V) (key : Key Int) => (⟨key.id, key.time, r.val⟩ : Row Int V)) (series c i)
      ((kb i).map (fun t => (⟨i, t⟩ : Key Int))) := by
    intro i hi
    rw [← hout, series_flatMap (ids_nodup c) _ (fun j hj => (hzk j hj).2), if_pos (mem_ids.2 hi)]
  have hcont : ∀ i, HasId c i → content out i = (kb i).zip ((series c i).map (·.val)) := by
    intro i hi
    unfold content
    rw [hser i hi, (hzk i (mem_ids.2 hi)).1]
    simp [Function.comp_def]
  have htimes : ∀ i, HasId c i → timesOf out i = kb i := by
    intro i hi
    have := congrArg (List.map (·.1)) (hcont i hi)
    rw [List.map_fst_zip (by rw [List.length_map, hl i hi])] at this
    rw [← this]
    simp [timesOf, content, Function.comp_def]
  have hvO : Valid out := by
    rw [← hout]
    apply valid_flatMap (ids_nodup c) _ (fun j hj => (hzk j hj).2)
    intro i hi
    have h1 := hinc i (mem_ids.1 hi)
    rw [← htimes i (mem_ids.1 hi)] at h1
    unfold timesOf at h1
    rwa [hser i (mem_ids.1 hi), List.pairwise_map] at h1
  have hidO : ∀ i, HasId out i ↔ HasId c i := by
    intro i
    constructor
    · rintro ⟨x, hx, rfl⟩
      rw [← hout] at hx
      obtain ⟨j, hj, hx⟩ := List.mem_flatMap.1 hx
      rw [(hzk j hj).2 x hx]
      exact mem_ids.1 hj
    · intro hi
      rw [hasId_iff_series]
      intro he
      have h2 := htimes i hi
      unfold timesOf at h2
      rw [he] at h2
      have h3 := hl i hi
      rw [← h2] at h3
      exact hasId_iff_series.1 hi (List.length_eq_zero_iff.1 (by simpa using h3.symm))
  have hne : out ≠ [] := by
    intro he
    obtain ⟨r0, l, hl'⟩ := List.ne_nil_iff_exists_cons.1 hc
    obtain ⟨x, hx, -⟩ := (hidO r0.id).2 ⟨r0, by rw [hl']; simp, rfl⟩
    rw [he] at hx; simp at hx
  refine ⟨out, ?_, hne, hvO, ?_, hidO, hcont, htimes⟩
  · unfold writeIndex
    rw [if_neg (by rw [hlen]; simp), hzip, build_ok_of_valid hvO hne]
  · rw [← hout]; exact ascending_flatMap (ids_sorted c) _ (fun i hi => (hzk i hi).2)

/-- The windows of a collection, series by series. -/
def windowList (c : List (Row Int V)) (w : Nat) (offset : Int) : List (List (Row Int V)) := (ids c).flatMap (fun i => windowsOf (series c i) w offset.toNat)

theorem mem_windowsOf {α : Type} {s win : List α} {w o : Nat} (h : win ∈ windowsOf s w o) : ∃ k, k * o + w ≤ s.length ∧ win = (s.drop (k * o)).take w := by
  unfold windowsOf at h
  obtain ⟨k, hk, rfl⟩ := List.mem_map.1 h
  exact ⟨k, by simpa using (List.mem_filter.1 hk).2, rfl⟩

theorem windowsOf_ne_nil {α : Type} {s : List α} {w o : Nat} (h : w ≤ s.length) : windowsOf s w o ≠ [] := by
  unfold windowsOf
  intro he
  have h0 : (0 : Nat) ∈ (List.range (s.length + 1)).filter (fun k => decide (k * o + w ≤ s.length)) := by simp [h]
  rw [List.map_eq_nil_iff] at he
  rw [he] at h0; simp at h0

theorem mem_windowList {c : List (Row Int V)} {w : Nat} {offset : Int} {win : List (Row Int V)} (h : win ∈ windowList c w offset) :
    ∃ i k, HasId c i ∧ win = ((series c i).drop (k * offset.toNat)).take w ∧ win.length = w := by
  unfold windowList at h
  obtain ⟨i, hi, h⟩ := List.mem_flatMap.1 h
  obtain ⟨k, hk, rfl⟩ := mem_windowsOf h
  refine ⟨i, k, mem_ids.1 hi, rfl, ?_⟩
  rw [List.length_take, List.length_drop]; omega

theorem ids_single {l : List (Row Int V)} {i : Nat} (hne : l ≠ []) (h : ∀ r ∈ l, r.id = i) : ids l = [i] ∧ content l i = l.map (fun r => (r.time, r.val)) := by
  have hs : series l i = l := by unfold series; rw [List.filter_eq_self]; intro r hr; simp [h r hr]
  constructor
  · apply eq_of_pairwise_lt (ids_sorted l) (by simp)
    intro j
    rw [mem_ids']
    simp only [List.mem_map, List.mem_singleton]
    constructor
    · rintro ⟨r, hr, rfl⟩; exact h r hr
    · rintro rfl
      obtain ⟨r, l', rfl⟩ := List.ne_nil_iff_exists_cons.1 hne
      exact ⟨r, by simp, h r (by simp)⟩
  · unfold content; rw [hs]

theorem listed_windows (ws : List (List (Row Int V))) (h : ∀ win ∈ ws, win ≠ [] ∧ ∃ i, ∀ r ∈ win, r.id = i) :
    listedSeries (ws.map Sum.inl) = ws.map (fun win => win.map (fun r => (r.time, r.val))) := by
  induction ws with
  | nil => rfl
  | cons win ws ih =>
    obtain ⟨hne, i, hi⟩ := h win (by simp)
    obtain ⟨h1, h2⟩ := ids_single hne hi
    rw [List.map_cons, listedSeries, h1, List.map_cons, ih (fun x hx => h x (by simp [hx]))]
    simp [h2]

/-- The frame of all windows: the `k`-th window has the ID `k`. -/
theorem windowFrames_ok {c : List (Row Int V)} (hc : c ≠ []) (hv : Valid c) (hd : isConstDeltaTime .int c = true) {w : Nat} (hw : 0 < w) {offset : Int} (ho : 0 < offset)
    (hlen : ∀ i, HasId c i → w ≤ (series c i).length) :
    ∃ d, windowFrames c w offset = .ok d ∧ d ≠ [] ∧ Valid d ∧ IdsAscending d ∧ ids d = List.range (windowList c w offset).length ∧
      ∀ k win, (windowList c w offset)[k]? = some win → content d k = win.map (fun r => (r.time, r.val)) := by
  have hiter := (C13_per_series hv .int w offset (windowList c w offset)).2 ⟨hd, by exact_mod_cast hw, ho, rfl⟩
  have hwin : ∀ win ∈ windowList c w offset, win ≠ [] ∧ ∃ i, ∀ r ∈ win, r.id = i := by
    intro win hwin
    obtain ⟨i, k, -, he, hl⟩ := mem_windowList hwin
    refine ⟨by intro h; rw [h] at hl; simp at hl; omega, i, fun r hr => ?_⟩
    rw [he] at hr
    exact (mem_series.1 (List.mem_of_mem_drop (List.mem_of_mem_take hr))).2
  have hlist := listed_windows (windowList c w offset) hwin
  have hsort : ∀ f ∈ listedSeries ((windowList c w offset).map Sum.inl), f ≠ [] ∧ (f.map (·.1)).Pairwise (· < ·) := by
    intro f hf
    rw [hlist] at hf
    obtain ⟨win, hm, rfl⟩ := List.mem_map.1 hf
    refine ⟨by simpa using (hwin win hm).1, ?_⟩
    obtain ⟨i, k, -, rfl, -⟩ := mem_windowList hm
    rw [List.map_map]
    have := hv.series_sorted i
    rw [List.pairwise_map]
    exact (this.drop).take
  have hnonempty : windowList c w offset ≠ [] := by
    obtain ⟨i0, t, hi⟩ := List.ne_nil_iff_exists_cons.1 (ids_ne_nil hc)
    have h0 : HasId c i0 := mem_ids.1 (by rw [hi]; simp)
    unfold windowList
    rw [hi, List.flatMap_cons]
    intro he
    exact windowsOf_ne_nil (hlen i0 h0) (List.append_eq_nil_iff.1 he).1
  obtain ⟨h1, h2⟩ := C125_frame_list ((windowList c w offset).map Sum.inl) none
  obtain ⟨d, hd'⟩ := h1.2 ⟨by rw [hlist]; simpa using hnonempty, by simp, hsort⟩
  obtain ⟨hvd, hids, hcont⟩ := h2 d hd'
  rw [hlist] at hids hcont
  simp only [Option.getD_none, List.length_map] at hids
  obtain ⟨-, hdne, -⟩ := build_ok_iff.1 (show build d = .ok d from build_ok_of_valid hvd (by
    rintro rfl
    simp only [List.map_nil] at hids
    have := congrArg List.length hids
    simp [newIds] at this
    exact hnonempty (List.length_eq_zero_iff.1 this.symm)))
  have hasc : IdsAscending d := by
    rw [← hvd.eq_flatMap, hids]
    exact ascending_flatMap List.pairwise_lt_range _ (fun i _ r hr => (mem_series.1 hr).2)
  refine ⟨d, ?_, hdne, hvd, hasc, by rw [← newIds_eq_ids hasc, hids], ?_⟩
  · unfold windowFrames; rw [hiter]; simp only; rw [hd']
  · intro k win hk
    rw [hids] at hcont
    have := congrArg (fun l => l[k]?) hcont
    simp only [List.getElem?_map, hk, Option.map_some] at this
    have hlt : k < (windowList c w offset).length := (List.getElem?_eq_some_iff.1 hk).1
    rw [List.getElem?_range hlt] at this
    simpa using this

end Verif.Edmd
