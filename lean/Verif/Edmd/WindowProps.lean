import Verif.Edmd.WindowLemmas
import Verif.Tsc.CheckProps
/-! # C150, C151: reconstruction in windows and with control input -/

namespace Verif.Edmd

open Verif.Tsc Verif.Np

variable {V W P : Type}

/-! ## C150 windows -/

theorem consecutive_take_drop {α : Type} {l : List α} {a b : Nat} {p : α × α} (h : p ∈ consecutive ((l.drop a).take b)) : p ∈ consecutive l := by
  have hd : ∀ (l : List α) a, p ∈ consecutive (l.drop a) → p ∈ consecutive l := by
    intro l a
    induction a generalizing l with
    | zero => simp
    | succ a ih =>
      match l with
      | [] => simp
      | [x] => simp [consecutive]
      | x :: y :: l =>
        rw [List.drop_succ_cons]
        intro h
        have := ih (y :: l) h
        simp [consecutive, this]
  have ht : ∀ (l : List α) b, p ∈ consecutive (l.take b) → p ∈ consecutive l := by
    intro l b
    induction l generalizing b with
    | nil => simp
    | cons x l ih =>
      match l, b with
      | _, 0 => simp [consecutive]
      | [], b + 1 => simp [consecutive]
      | y :: l, 1 => simp [consecutive]
      | y :: l, b + 2 =>
        rw [List.take_succ_cons, List.take_succ_cons]
        simp only [consecutive, List.mem_cons]
        rintro (h | h)
        · exact Or.inl h
        · exact Or.inr (ih (b + 1) (by rwa [List.take_succ_cons]))
  exact hd _ _ (ht _ _ h)

/-- Start of a window. -/
def startOf (win : List (Row Int V)) : Int := (win.head?.map (·.time)).getD 0

/-- **C150.** Windowed reconstruction.  Let the collection be sampled with a constant interval `d`, every series have at least `w` samples, `1 ≤ n < w` and `0 < offset`.  The result holds one series
for each run of `w` consecutive samples of a series that starts at position `0, offset, 2 offset, ...` and fits, numbered series by series.  The `k`-th one has the time values of the last `w - n + 1` samples
of its window, and at time `t` the prediction `f k (t - start)` computed from the first `n` samples of its own window.  `predict` is called once with all initial conditions, shifted to time zero. -/
theorem C150_windows {predict : List (Row Int V) → List Int → Except WinErr (List (Row Int W))} {n w : Nat} {offset : Int} (hn : 1 ≤ n) (hw : n < w) (ho : 0 < offset)
    {c : List (Row Int V)} (hc : c ≠ []) (hv : Valid c) {d : Int} (hreg : ∀ i, HasId c i → Regular (timesOf c i) d)
    (hlen : ∀ i, HasId c i → w ≤ (series c i).length) (f : Nat → Int → W)
    (hp : ∀ ic times, Valid ic → IdsAscending ic → (∀ k, HasId ic k ↔ k < (windowList c w offset).length) →
      (∀ k win, (windowList c w offset)[k]? = some win → content ic k = (win.take n).map (fun r => (r.time - startOf win, r.val))) →
      times = (List.range (w - n + 1)).map (fun j : Nat => ((n - 1 + j : Nat) : Int) * d) →
      ∃ r, predict ic times = .ok r ∧ Valid r ∧ IdsAscending r ∧ (∀ k, HasId r k ↔ HasId ic k) ∧ ∀ k, HasId ic k → content r k = times.map (fun t => (t, f k t))) :
    ∃ r, windowReconstruct predict n w offset c = .ok r ∧ Valid r ∧ (∀ k, HasId r k ↔ k < (windowList c w offset).length) ∧
      ∀ k win, (windowList c w offset)[k]? = some win → content r k = (win.drop (n - 1)).map (fun x => (x.time, f k (x.time - startOf win))) := by
  have hconst := isConstDelta_regular hc hv hreg
  obtain ⟨e, he, hene, hev, hea, heids, hecont⟩ := windowFrames_ok hc hv hconst (by omega : 0 < w) ho hlen
  set K := (windowList c w offset).length with hK
  have hid : ∀ k, HasId e k ↔ k < K := by intro k; rw [← mem_ids, heids, List.mem_range]
  have hget : ∀ k, k < K → ∃ win : List (Row Int V), (windowList c w offset)[k]? = some win := fun k hk => ⟨_, List.getElem?_eq_getElem hk⟩
  have hwin : ∀ (k : Nat) (win : List (Row Int V)), (windowList c w offset)[k]? = some win → win.length = w ∧ Regular (win.map (·.time)) d := by
    intro k win hk
    obtain ⟨i, q, hi, rfl, hl⟩ := mem_windowList (List.mem_of_getElem? hk)
    refine ⟨hl, by rw [List.length_map, hl]; omega, fun p hp => ?_⟩
    rw [List.map_take, List.map_drop] at hp
    exact (hreg i hi).2 p (consecutive_take_drop hp)
  have hetimes : ∀ (k : Nat) (win : List (Row Int V)), (windowList c w offset)[k]? = some win → timesOf e k = win.map (·.time) := by
    intro k win hk
    have := congrArg (List.map (·.1)) (hecont k win hk)
    simpa [content, timesOf, Function.comp_def] using this
  have hevals : ∀ (k : Nat) (win : List (Row Int V)), (windowList c w offset)[k]? = some win → (series e k).map (·.val) = win.map (·.val) := by
    intro k win hk
    have := congrArg (List.map (·.2)) (hecont k win hk)
    simpa [content, Function.comp_def] using this
  have helen : ∀ k, HasId e k → (series e k).length = w := by
    intro k hk
    obtain ⟨win, h⟩ := hget k ((hid k).1 hk)
    have := congrArg List.length (hetimes k win h)
    rw [List.length_map, (hwin k win h).1] at this
    simpa [timesOf] using this
  have hdpos : 0 < d := by
    obtain ⟨r0, l, hl⟩ := List.ne_nil_iff_exists_cons.1 hc
    exact regular_pos hv (hreg r0.id ⟨r0, by rw [hl]; simp, rfl⟩)
  -- the time values of the first window
  have hK0 : 0 < K := by
    obtain ⟨r0, l, hl⟩ := List.ne_nil_iff_exists_cons.1 hene
    have := (hid r0.id).1 ⟨r0, by rw [hl]; simp, rfl⟩
    omega
  obtain ⟨win0, hwin0⟩ := hget 0 hK0
  have hhead : (ids e).headD 0 = 0 := by
    obtain ⟨m, hm⟩ : ∃ m, K = m + 1 := ⟨K - 1, by omega⟩
    rw [heids, hm, List.range_succ_eq_map]; rfl
  have hprod : productIndex e = (ids e).flatMap (fun i => ((fun _ : Nat => timesOf e 0) i).map (fun t => (⟨i, t⟩ : Key Int))) := by
    unfold productIndex; rw [hhead]; rfl
  have h00 : HasId e 0 := (hid 0).2 hK0
  obtain ⟨e', he', hne', hv', ha', hid', hcont', htimes'⟩ := writeIndex_ok hene hev hea (fun _ => timesOf e 0)
    (fun i hi => by rw [helen i hi]; simp [timesOf, helen 0 h00])
    (fun i hi => by rw [timesOf, List.pairwise_map]; exact hev.series_sorted 0)
  rw [← hprod] at he'
  have hreg0 : Regular (timesOf e 0) d := by rw [hetimes 0 win0 hwin0]; exact (hwin 0 win0 hwin0).2
  have hreg' : ∀ i, HasId e' i → Regular (timesOf e' i) d := fun i hi => by rw [htimes' i ((hid' i).1 hi)]; exact hreg0
  have hlen' : ∀ i, HasId e' i → (series e' i).length = w := by
    intro i hi
    have := congrArg List.length (htimes' i ((hid' i).1 hi))
    have h2 := helen 0 h00
    simp only [timesOf, List.length_map] at this
    omega
  have hidK : ∀ k, HasId e' k ↔ k < K := fun k => (hid' k).trans (hid k)
  have hf0 : ∀ k, HasId e' k → firstTime e' k = (timesOf e 0).headD 0 := by
    intro k hk
    have := firstTime_head hk
    rw [htimes' k ((hid' k).1 hk)] at this
    rw [List.headD_eq_head?_getD, this]; rfl
  have ht0 : ∀ j (hj : j < (timesOf e 0).length), (timesOf e 0)[j] = (timesOf e 0).headD 0 + j * d := by
    intro j hj
    have := regular_getElem hreg0.2 (firstTime_head h00) j hj
    rw [this, List.headD_eq_head?_getD, firstTime_head h00]; rfl
  have hl0 : (timesOf e 0).length = w := by rw [timesOf, List.length_map, helen 0 h00]
  have hwt : ∀ (k : Nat) (win : List (Row Int V)), (windowList c w offset)[k]? = some win → ∀ j (hj : j < win.length), win[j].time = startOf win + j * d := by
    intro k win hk j hj
    have h1 : (win.map (·.time)).head? = some (startOf win) := by
      unfold startOf
      rw [List.head?_map]
      cases win with
      | nil => simp at hj
      | cons a l => simp
    have := regular_getElem (hwin k win hk).2.2 h1 j (by simpa using hj)
    simpa using this
  obtain ⟨r, hr, hrv, hra, hrid, hrcont⟩ := C35_reconstruct_partial (liftE := WinErr.tsc) (predict := predict) hn hne' hv' ha' hreg' (fun i hi => by rw [hlen' i hi]; omega)
    (fun i j hi hj _ => by rw [hlen' i hi, hlen' j hj]) f (by
      intro ic times hic hicv hica hall hfirst
      have hicid : ∀ k, HasId ic k ↔ k < K := by
        intro k
        rw [← hidK]
        constructor
        · intro hk; exact (hfirst k hk).1
        · intro hk
          obtain ⟨r0, l, hl⟩ := List.ne_nil_iff_exists_cons.1 hic
          have h0 : HasId ic r0.id := ⟨r0, by rw [hl]; simp, rfl⟩
          refine hall r0.id k h0 hk ?_
          rw [hlen' _ (hfirst _ h0).1, hlen' k hk]
      apply hp ic times hicv hica hicid
      · intro k win hk
        have hkK := (List.getElem?_eq_some_iff.1 hk).1
        obtain ⟨hk', hcon, -⟩ := hfirst k ((hicid k).2 hkK)
        rw [hcon, hcont' k ((hid' k).1 hk'), hf0 k hk', hevals k win hk]
        have hwl := (hwin k win hk).1
        apply List.ext_getElem
        · simp [hl0, hwl]
        · intro j h1 h2
          have hj : j < n := by simp [hwl] at h2; omega
          simp only [List.getElem_map, List.getElem_take, List.getElem_zip, Prod.mk.injEq, and_true]
          rw [ht0 j (by omega), hwt k win hk j (by omega)]
          ring
      · obtain ⟨r0, l, hl⟩ := List.ne_nil_iff_exists_cons.1 hic
        have h0 : HasId ic r0.id := ⟨r0, by rw [hl]; simp, rfl⟩
        obtain ⟨hk', -, ht⟩ := hfirst r0.id h0
        rw [ht, htimes' _ ((hid' _).1 hk'), hf0 _ hk']
        apply List.ext_getElem
        · simp [hl0]; omega
        · intro j h1 h2
          have hj : n - 1 + j < w := by simp [hl0] at h1; omega
          simp only [List.getElem_map, List.getElem_drop, List.getElem_range]
          rw [ht0 (n - 1 + j) (by omega)]
          ring)
  -- write the true index
  have hridK : ∀ k, HasId r k ↔ k < K := fun k => (hrid k).trans (hidK k)
  have hidsr : ids r = List.range K := by
    apply eq_of_pairwise_lt (ids_sorted r) List.pairwise_lt_range
    intro i
    rw [mem_ids, List.mem_range, hridK]
  have hrne : r ≠ [] := by
    obtain ⟨x, hx, -⟩ := (hridK 0).2 hK0
    exact List.ne_nil_of_mem hx
  have hser : ∀ k, HasId e k → (series e k).drop ((series e k).length - (w - n + 1)) = (series e k).drop (n - 1) := by
    intro k hk
    rw [helen k hk]; congr 1; omega
  have htail : (groupTail (w - n + 1) e).map (·.key) = (ids r).flatMap (fun i => (((timesOf e i).drop (n - 1))).map (fun t => (⟨i, t⟩ : Key Int))) := by
    obtain ⟨g, hg, hgv, hgid, hgser⟩ := (C06_final hene hev ((w - n + 1 : Nat) : Int)).1 ⟨by omega, fun i hi => by rw [helen i hi]; omega⟩
    have hgeq : groupTail (w - n + 1) e = g := by
      unfold finalStates at hg
      split at hg
      · simp at hg
      split at hg
      · simp at hg
      rw [Int.toNat_natCast] at hg
      exact (build_ok_iff.1 hg).1
    have hga : IdsAscending g := by
      rw [← hgeq]; unfold IdsAscending
      exact List.Pairwise.sublist ((groupTail_sublist _ _).map _) hea
    have hidg : ids g = ids r := by
      rw [hidsr]
      apply eq_of_pairwise_lt (ids_sorted g) List.pairwise_lt_range
      intro i
      rw [mem_ids, List.mem_range, hgid, hid]
    rw [hgeq]
    conv => lhs; rw [← eq_flatMap_ids hgv hga]
    rw [List.map_flatMap, hidg]
    apply List.flatMap_congr
    intro i hi
    have hie : HasId e i := by rw [hid, ← List.mem_range, ← hidsr]; exact hi
    rw [hgser i, Int.toNat_natCast, hser i hie, timesOf, ← List.map_drop, List.map_map]
    apply List.map_congr_left
    intro x hx
    have := (mem_series.1 (List.mem_of_mem_drop hx)).2
    simp [Row.key, this]
  have hrlen : ∀ k, HasId r k → (series r k).length = w - n + 1 := by
    intro k hk
    have := congrArg List.length (hrcont k ((hrid k).1 hk))
    rw [htimes' k ((hid' k).1 ((hrid k).1 hk))] at this
    simp [content, hl0] at this
    omega
  obtain ⟨out, hout, -, houtv, -, houtid, houtcont, -⟩ := writeIndex_ok hrne hrv hra (fun i => (timesOf e i).drop (n - 1))
    (fun i hi => by
      have hie : HasId e i := (hid i).2 ((hridK i).1 hi)
      rw [List.length_drop, hrlen i hi, timesOf, List.length_map, helen i hie]; omega)
    (fun i hi => by
      refine List.Pairwise.drop ?_
      rw [timesOf, List.pairwise_map]; exact hev.series_sorted i)
  rw [← htail] at hout
  refine ⟨out, ?_, houtv, fun k => (houtid k).trans (hridK k), ?_⟩
  · unfold windowReconstruct windowCore
    rw [if_neg (by omega), hconst, (checkMinTimesteps_iff hc w).2 (fun i hi => by exact_mod_cast hlen i hi)]
    simp only [Bool.not_true, Bool.false_eq_true, if_false]
    rw [he]
    simp only
    rw [if_neg (by rw [(nTimesteps_one hene w).2 (fun i hi => helen i (mem_ids.1 hi))]; simp), he']
    simp only [hr]
    exact hout
  · intro k win hk
    have hkK := (List.getElem?_eq_some_iff.1 hk).1
    have hkr := (hridK k).2 hkK
    have hke := (hidK k).2 hkK
    rw [houtcont k hkr]
    have hvals : (series r k).map (·.val) = ((timesOf e' k).drop (n - 1)).map (fun t => f k (t - firstTime e' k)) := by
      have := congrArg (List.map (·.2)) (hrcont k hke)
      simpa [content, Function.comp_def] using this
    rw [hvals, htimes' k ((hid' k).1 hke), hf0 k hke, hetimes k win hk]
    have hwl := (hwin k win hk).1
    apply List.ext_getElem
    · simp [hl0, hwl]
    · intro j h1 h2
      have hj : n - 1 + j < w := by simp [hwl] at h2; omega
      simp only [List.getElem_map, List.getElem_drop, List.getElem_zip, Prod.mk.injEq, true_and]
      rw [ht0 (n - 1 + j) (by omega), hwt k win hk (n - 1 + j) (by omega)]
      congr 1; ring

/-- A system at rest. -/
def restModel' (ic : List (Row Int Int)) (times : List Int) : Except WinErr (List (Row Int Int)) :=
  .ok ((ids ic).flatMap (fun i => times.map (fun t => ⟨i, t, ((series ic i).getLast?.map (·.val)).getD 0⟩)))

/-- `C150_windows` at work: windows of three samples with offset two; `n = 2`. -/
example : windowReconstruct restModel' 2 3 2 [⟨4, 10, 1⟩, ⟨4, 15, 2⟩, ⟨4, 20, 3⟩, ⟨4, 25, 4⟩, ⟨4, 30, 5⟩, ⟨7, 0, 6⟩, ⟨7, 5, 7⟩, ⟨7, 10, 8⟩, ⟨7, 15, 9⟩] =
    .ok [⟨0, 15, 2⟩, ⟨0, 20, 2⟩, ⟨1, 25, 4⟩, ⟨1, 30, 4⟩, ⟨2, 5, 7⟩, ⟨2, 10, 7⟩] := by decide +kernel

theorem chunks_flatten {α : Type} (l : List α) (o K : Nat) : ((List.range K).map (fun k => (l.drop (k * o)).take o)).flatten = l.take (K * o) := by
  induction K with
  | zero => simp
  | succ K ih =>
    rw [List.range_succ, List.map_append, List.flatten_append, ih]
    simp only [List.map_cons, List.map_nil, List.flatten_cons, List.flatten_nil, List.append_nil]
    rw [Nat.succ_mul, List.take_add]

theorem windowsOf_eq {α : Type} (s : List α) (w o : Nat) (ho : 0 < o) (hw : w ≤ s.length) :
    windowsOf s w o = (List.range ((s.length - w) / o + 1)).map (fun k => (s.drop (k * o)).take w) := by
  obtain ⟨K, he, hK⟩ := windowLoop_spec s w o ho 0
  rw [← windowLoop_eq s w o ho, he]
  have : K = (s.length - w) / o + 1 := by
    apply Nat.le_antisymm
    · by_contra h
      have h1 := (hK ((s.length - w) / o + 1)).1 (by omega)
      have h2 := Nat.lt_div_mul_add (a := s.length - w) ho
      rw [Nat.succ_mul] at h1
      omega
    · have := (hK ((s.length - w) / o)).2 (by have := Nat.div_mul_le_self (s.length - w) o; omega)
      omega
  rw [this]
  simp

/-- **C150 (true part of the documented choice `offset = window_size - n_samples_ic_`).** The samples of the windows behind their `n` initial samples are, window after window, samples
`n, n+1, ...` of the series, each once; the last `(length - n) mod offset` samples are in no window. -/
theorem C150_cover_partial {α : Type} (s : List α) {n w : Nat} (hw : n < w) (hs : w ≤ s.length) :
    ((windowsOf s w (w - n)).map (List.drop n)).flatten = (s.drop n).take ((s.length - n) / (w - n) * (w - n)) := by
  rw [windowsOf_eq s w (w - n) (by omega) hs, List.map_map]
  have h1 : (s.length - w) / (w - n) + 1 = (s.length - n) / (w - n) := by
    have : s.length - n = (s.length - w) + (w - n) := by omega
    rw [this, Nat.add_div_right _ (by omega)]
  rw [h1, ← chunks_flatten]
  congr 1
  apply List.map_congr_left
  intro k _
  simp only [Function.comp, List.drop_take, List.drop_drop]
  rw [Nat.add_comm]

/-- **C150 fails** for the documented "samples are not dropped": whenever the number of samples behind the initial condition is not a multiple of the offset, samples at the end of the series
are not reconstructed. -/
theorem C150_dropped_violated {α : Type} (s : List α) {n w : Nat} (hw : n < w) (hs : w ≤ s.length) (h : ¬ (w - n) ∣ (s.length - n)) :
    ((windowsOf s w (w - n)).map (List.drop n)).flatten ≠ s.drop n := by
  rw [C150_cover_partial s hw hs]
  intro he
  have := congrArg List.length he
  rw [List.length_take, List.length_drop] at this
  have h2 := Nat.div_mul_le_self (s.length - n) (w - n)
  exact h ⟨(s.length - n) / (w - n), by rw [Nat.mul_comm]; omega⟩

example : ((windowsOf [0, 1, 2, 3, 4, 5] 3 (3 - 1)).map (List.drop 1)).flatten = [1, 2, 3, 4] ∧ ¬ (3 - 1) ∣ (6 - 1) := by decide

/-! ## C151 control input -/

theorem timeValues_const {f : List (Row Int V)} (hne : f ≠ []) {t : Int} (h : ∀ r ∈ f, r.time = t) : timeValues f = [t] := by
  apply eq_of_pairwise_lt (unique_pairwise _) (by simp)
  intro x
  rw [mem_unique]
  simp only [List.mem_map, List.mem_singleton]
  constructor
  · rintro ⟨r, hr, rfl⟩; exact h r hr
  · rintro rfl
    obtain ⟨r, l, rfl⟩ := List.ne_nil_iff_exists_cons.1 hne
    exact ⟨r, by simp, h r (by simp)⟩

theorem exists_hasId {c : List (Row Int V)} (hc : c ≠ []) : ∃ i, HasId c i := by
  obtain ⟨r0, l, hl⟩ := List.ne_nil_iff_exists_cons.1 hc
  exact ⟨r0.id, r0, by rw [hl]; simp, rfl⟩

/-- What `validate_control` requires. -/
theorem validateControl_iff {ic : List (Row Int V)} {u : List (Row Int P)} (hic : ic ≠ []) (hv : Valid ic) (ha : IdsAscending ic) (hu : u ≠ []) (huv : Valid u) {t s : Int}
    (ht : ∀ i, HasId ic i → (timesOf ic i).getLast? = some t) (hs : ∀ i, HasId u i → (timesOf u i).head? = some s) :
    validateControl ic u = .ok () ↔ (∀ i, HasId u i ↔ HasId ic i) ∧ isSameTimeValues u = true ∧ t = s := by
  have hreq : checkRequiredIds ic (ids u) true = none ↔ ∀ i, HasId u i ↔ HasId ic i := by
    rw [C115_required_ids_order hv]
    constructor
    · rintro ⟨-, h2, h3⟩ i
      constructor
      · intro hi; exact h2 i (mem_ids.2 hi)
      · rintro ⟨r, hr, rfl⟩
        rw [h3] at hr
        obtain ⟨j, hj, hr⟩ := List.mem_flatMap.1 hr
        rw [(mem_series.1 hr).2]
        exact mem_ids.1 hj
    · intro h
      have hids : ids u = ids ic := by
        apply eq_of_pairwise_lt (ids_sorted u) (ids_sorted ic)
        intro i; rw [mem_ids, mem_ids, h]
      refine ⟨ids_nodup u, fun i hi => (h i).1 (mem_ids.1 hi), ?_⟩
      rw [hids, eq_flatMap_ids hv ha]
  unfold validateControl
  by_cases h1 : checkRequiredIds ic (ids u) true = none
  swap
  · rw [if_pos h1]
    simp only [reduceCtorEq, false_iff]
    rintro ⟨h, -⟩; exact h1 (hreq.2 h)
  rw [if_neg (by simpa using h1)]
  cases h2 : isSameTimeValues u with
  | false => simp
  | true =>
    simp only [Bool.not_true, Bool.false_eq_true, if_false, true_and, and_iff_right (hreq.1 h1)]
    obtain ⟨f, hf, hfv, hfid, hfser⟩ := (C06_final hic hv 1).1 ⟨le_refl _, fun i hi => by
      have := List.length_pos_iff.2 (hasId_iff_series.1 hi); exact_mod_cast this⟩
    obtain ⟨g, hg, hgv, hgid, hgser⟩ := (C06_initial hu huv 1).1 ⟨le_refl _, fun i hi => by
      have := List.length_pos_iff.2 (hasId_iff_series.1 hi); exact_mod_cast this⟩
    rw [hf, hg]
    simp only
    have hft : timeValues f = [t] := by
      obtain ⟨i, hi⟩ := exists_hasId hic
      obtain ⟨x, hx, -⟩ := (hfid i).2 hi
      apply timeValues_const (List.ne_nil_of_mem hx)
      intro r hr
      have hid := (hfid r.id).1 ⟨r, hr, rfl⟩
      have hr' : r ∈ series f r.id := mem_series.2 ⟨hr, rfl⟩
      rw [hfser] at hr'
      have hl := ht r.id hid
      obtain ⟨l, a, hla⟩ := List.eq_nil_or_concat (series ic r.id) |>.resolve_left (hasId_iff_series.1 hid)
      rw [hla] at hr'
      rw [timesOf, hla] at hl
      simp at hr' hl
      rw [hr']; exact hl
    have hgt : timeValues g = [s] := by
      obtain ⟨i, hi⟩ := exists_hasId hu
      obtain ⟨x, hx, -⟩ := (hgid i).2 hi
      apply timeValues_const (List.ne_nil_of_mem hx)
      intro r hr
      have hid := (hgid r.id).1 ⟨r, hr, rfl⟩
      have hr' : r ∈ series g r.id := mem_series.2 ⟨hr, rfl⟩
      rw [hgser] at hr'
      have hl := hs r.id hid
      obtain ⟨a, l, hla⟩ := List.ne_nil_iff_exists_cons.1 (hasId_iff_series.1 hid)
      rw [hla] at hr'
      rw [timesOf, hla] at hl
      simp at hr' hl
      rw [hr']; exact hl
    rw [hft, hgt]
    simp

/-- The control input has, for each series, the time values from the last initial state to the last but one state (what `fit` requires for `n = 1`). -/
def ControlFits (c : List (Row Int V)) (u : List (Row Int P)) (n : Nat) : Prop :=
  Valid u ∧ (∀ i, HasId u i ↔ HasId c i) ∧ ∀ i, HasId c i → timesOf u i = ((timesOf c i).drop (n - 1)).dropLast

theorem regular_eq {l l' : List Int} {d : Int} (h : Regular l d) (h' : Regular l' d) (h0 : l.head? = l'.head?) (hl : l.length = l'.length) : l = l' := by
  apply List.ext_getElem hl
  intro j h1 h2
  obtain ⟨a, t, ha⟩ := List.ne_nil_iff_exists_cons.1 (show l ≠ [] by rintro rfl; simp at h1)
  have ha0 : l.head? = some a := by rw [ha]; rfl
  rw [regular_getElem h.2 ha0 j h1, regular_getElem h'.2 (h0 ▸ ha0) j h2]

theorem control_head {c : List (Row Int V)} {u : List (Row Int P)} {n : Nat} (hn : 1 ≤ n) {d : Int} (hreg : ∀ i, HasId c i → Regular (timesOf c i) d)
    (hlen : ∀ i, HasId c i → n + 1 ≤ (series c i).length) (hu : ControlFits c u n) {i : Nat} (hi : HasId c i) :
    (timesOf u i).head? = some (firstTime c i + ((n - 1 : Nat) : Int) * d) := by
  rw [hu.2.2 i hi]
  have hl : (timesOf c i).length = (series c i).length := by simp [timesOf]
  have := hlen i hi
  rw [List.head?_eq_getElem?, List.getElem?_dropLast, if_pos (by rw [List.length_drop]; omega), List.getElem?_drop, List.getElem?_eq_getElem (by omega),
    regular_getElem (hreg i hi).2 (firstTime_head hi)]
  simp

/-- **C151 (true part).** If all series start at time zero and have the same number of samples, `reconstruct` predicts every series with control from its own first `n` samples, with the control series of the same
ID, and returns it at its own time values.  Missing: other start times and different lengths, see `C151_start_violated` and `C151_lengths_violated`. -/
theorem C151_reconstruct_partial {predict : List (Row Int V) → List (Row Int P) → List Int → Except WinErr (List (Row Int W))} {n : Nat} (hn : 1 ≤ n)
    {c : List (Row Int V)} {u : List (Row Int P)} (hc : c ≠ []) (hv : Valid c) (hs : IdsAscending c) {d : Int} (hreg : ∀ i, HasId c i → Regular (timesOf c i) d)
    (hlen : ∀ i, HasId c i → n + 1 ≤ (series c i).length) (heq : EqualLengths c) (hzero : ∀ i, HasId c i → firstTime c i = 0) (hu : ControlFits c u n) (f : Nat → Int → W)
    (hp : ∀ ic times, Valid ic → IdsAscending ic → (∀ i, HasId ic i ↔ HasId c i) → (∀ i, HasId c i → content ic i = (content c i).take n ∧ times = (timesOf c i).drop (n - 1)) →
      ∃ r, predict ic u times = .ok r ∧ Valid r ∧ IdsAscending r ∧ (∀ i, HasId r i ↔ HasId ic i) ∧ ∀ i, HasId ic i → content r i = times.map (fun t => (t, f i t))) :
    ∃ r, reconstructControl predict n c u = (.ok r, c) ∧ Valid r ∧ IdsAscending r ∧ (∀ i, HasId r i ↔ HasId c i) ∧
      ∀ i, HasId c i → content r i = ((timesOf c i).drop (n - 1)).map (fun t => (t, f i t)) := by
  obtain ⟨i0, hi0⟩ := exists_hasId hc
  have hune : u ≠ [] := by obtain ⟨r, hr, -⟩ := (hu.2.1 i0).2 hi0; exact List.ne_nil_of_mem hr
  have hsame : ∀ i j, HasId c i → HasId c j → timesOf c i = timesOf c j := by
    intro i j hi hj
    apply regular_eq (hreg i hi) (hreg j hj)
    · rw [firstTime_head hi, firstTime_head hj, hzero i hi, hzero j hj]
    · simp [timesOf, heq i j hi hj]
  have husame : isSameTimeValues u = true := by
    rw [C10_same_time_values hune hu.1]
    intro i j hi hj
    have hi' := (hu.2.1 i).1 hi
    have hj' := (hu.2.1 j).1 hj
    have h1 := hu.2.2 i hi'
    have h2 := hu.2.2 j hj'
    rw [hsame i j hi' hj', ← h2] at h1
    simpa [content, timesOf, Function.comp_def] using h1
  obtain ⟨r, hr, hrv, hra, hrid, hrc⟩ := C35_reconstruct_partial (liftE := WinErr.tsc)
    (predict := fun ic times => match validateControl ic u with
      | .error e => .error e
      | .ok _ => predict ic (selectIds u (ids ic)) times) hn hc hv hs hreg (fun i hi => by have := hlen i hi; omega)
    (fun i j hi hj _ => (heq i j hi hj).le) f (by
      intro ic times hic hicv hica hall hfirst
      have hicid : ∀ k, HasId ic k ↔ HasId c k := by
        intro k
        constructor
        · intro hk; exact (hfirst k hk).1
        · intro hk
          obtain ⟨j, hj⟩ := exists_hasId hic
          exact hall j k hj hk (heq j k (hfirst j hj).1 hk)
      have hcon : ∀ i, HasId c i → content ic i = (content c i).take n ∧ times = (timesOf c i).drop (n - 1) := by
        intro i hi
        obtain ⟨-, h1, h2⟩ := hfirst i ((hicid i).2 hi)
        rw [h1, h2, hzero i hi]
        simp
      have hval : validateControl ic u = .ok () := by
        rw [validateControl_iff hic hicv hica hune hu.1 (t := ((n - 1 : Nat) : Int) * d) (s := ((n - 1 : Nat) : Int) * d)]
        · exact ⟨fun i => (hu.2.1 i).trans (hicid i).symm, husame, rfl⟩
        · intro i hi
          have hi' := (hicid i).1 hi
          have h1 : timesOf ic i = (timesOf c i).take n := by
            have := congrArg (List.map (·.1)) (hcon i hi').1
            simpa [content, timesOf, Function.comp_def, List.map_take] using this
          have hl : (timesOf c i).length = (series c i).length := by simp [timesOf]
          have h2 := hlen i hi'
          have h3 : ((timesOf c i).take n).length = n := by rw [List.length_take]; omega
          rw [h1, List.getLast?_eq_getElem?, h3, List.getElem?_take_of_lt (by omega), List.getElem?_eq_getElem (by omega), regular_getElem (hreg i hi').2 (firstTime_head hi'), hzero i hi']
          simp
        · intro i hi
          have hi' := (hu.2.1 i).1 hi
          rw [control_head hn hreg hlen hu hi', hzero i hi']
          simp
      have hsel : selectIds u (ids ic) = u := by
        unfold selectIds
        rw [List.filter_eq_self]
        intro r hr
        simp only [decide_eq_true_eq, mem_ids]
        exact (hicid r.id).2 ((hu.2.1 r.id).1 ⟨r, hr, rfl⟩)
      obtain ⟨r, h1, h2⟩ := hp ic times hicv hica hicid hcon
      refine ⟨r, ?_, h2⟩
      rw [hval]
      simp only
      rw [hsel, h1])
  refine ⟨r, hr, hrv, hra, hrid, fun i hi => ?_⟩
  rw [hrc i hi, hzero i hi]
  simp

theorem mapM_error_of_mem {α β E : Type} (f : α → Except E β) (l : List α) (h : ∃ a ∈ l, ∃ e, f a = .error e) : ∃ e, l.mapM f = .error e := by
  cases hm : l.mapM f with
  | error e => exact ⟨e, rfl⟩
  | ok r =>
    exfalso
    obtain ⟨a, ha, e, he⟩ := h
    obtain ⟨k, hk, rfl⟩ := List.mem_iff_getElem.1 ha
    obtain ⟨v, -, hv⟩ := (mapM_ok_get _ _ _ hm).2 k _ (List.getElem?_eq_getElem hk)
    rw [he] at hv; simp at hv

theorem reconstruct_error {E : Type} {liftE : TscErr → E} {predict : List (Row Int V) → List Int → Except E (List (Row Int W))} {n : Nat} {c : List (Row Int V)}
    (h : ∀ s gs, (shiftPerSeries .int c).1 = .ok s → iterReconstruct .int s n = .ok gs → ∃ g ∈ gs, ∃ e, predict g.1 g.2 = .error e) :
    ∃ e, (reconstructEdmd liftE predict n c).1 = .error e := by
  unfold reconstructEdmd
  split
  · exact ⟨_, rfl⟩
  · rename_i s c' hs
    split
    · exact ⟨_, rfl⟩
    · rename_i gs hgs
      obtain ⟨e, he⟩ := mapM_error_of_mem (fun g : List (Row Int V) × List Int => predict g.1 g.2) gs (h s gs (by rw [hs]) hgs)
      rw [he]
      exact ⟨e, rfl⟩

/-- **C151 fails** for data that does not start at time zero: with control input at the time values of the states, `reconstruct` raises, whatever the model. -/
theorem C151_start_violated (predict : List (Row Int V) → List (Row Int P) → List Int → Except WinErr (List (Row Int W))) {n : Nat} (hn : 1 ≤ n)
    {c : List (Row Int V)} {u : List (Row Int P)} (hc : c ≠ []) (hv : Valid c) (hs : IdsAscending c) {d : Int} (hreg : ∀ i, HasId c i → Regular (timesOf c i) d)
    (hlen : ∀ i, HasId c i → n + 1 ≤ (series c i).length) (hu : ControlFits c u n) {i : Nat} (hi : HasId c i) (hstart : firstTime c i ≠ 0) :
    ∃ e, (reconstructControl predict n c u).1 = .error e := by
  apply reconstruct_error
  intro s gs hsh hgs
  have hdelta := C11_regular hc hv .int hreg
  rw [shiftPerSeries_eq hc hv (Or.inl hs) hdelta hreg] at hsh
  simp only [Except.ok.injEq] at hsh
  subst hsh
  have hreg' : ∀ i, HasId (normalised c) i → Regular (timesOf (normalised c) i) d := fun i hi => normalised_regular (hreg i (normalised_hasId.1 hi))
  have hD := hasDeltas_int (normalised_ne_nil.2 hc) (normalised_valid hv) hreg'
  obtain ⟨gs', hgs', hg, hall, -⟩ := iter_order (normalised_ne_nil.2 hc) (normalised_valid hv) hD hn (fun i hi => by
    rw [normalised_series, List.length_map]; have := hlen i (normalised_hasId.1 hi); omega)
  rw [hgs] at hgs'
  simp only [Except.ok.injEq] at hgs'
  subst hgs'
  obtain ⟨g, hgm, hgi⟩ := hall i (normalised_hasId.2 hi)
  obtain ⟨hgne, hgv, hgc⟩ := hg g hgm
  refine ⟨g, hgm, ?_⟩
  cases hval : validateControl g.1 u with
  | error e => exact ⟨e, rfl⟩
  | ok x =>
    exfalso
    have hune : u ≠ [] := by obtain ⟨r, hr, -⟩ := (hu.2.1 i).2 hi; exact List.ne_nil_of_mem hr
    have hus : isSameTimeValues u = true := by
      unfold validateControl at hval
      split at hval
      · simp at hval
      · split at hval
        · simp at hval
        · rename_i h; simpa using h
    have hheads : ∀ j, HasId u j → (timesOf u j).head? = some (firstTime c i + ((n - 1 : Nat) : Int) * d) := by
      intro j hj
      have h1 := (C10_same_time_values hune hu.1).1 hus j i hj ((hu.2.1 i).2 hi)
      have h2 : timesOf u j = timesOf u i := by simpa [content, timesOf, Function.comp_def] using h1
      rw [h2, control_head hn hreg hlen hu hi]
    have hlast : ∀ j, HasId g.1 j → (timesOf g.1 j).getLast? = some (((n - 1 : Nat) : Int) * d) := by
      intro j hj
      obtain ⟨hjc, h1, -⟩ := hgc j hj
      have h2 : timesOf g.1 j = (timesOf (normalised c) j).take n := by
        have := congrArg (List.map (·.1)) h1
        simpa [content, timesOf, Function.comp_def, List.map_take] using this
      have hjc' := normalised_hasId.1 hjc
      have hl : (timesOf (normalised c) j).length = (series c j).length := by rw [normalised_times]; simp [timesOf]
      have h3 := hlen j hjc'
      have h4 : ((timesOf (normalised c) j).take n).length = n := by rw [List.length_take]; omega
      rw [h2, List.getLast?_eq_getElem?, h4, List.getElem?_take_of_lt (by omega), List.getElem?_eq_getElem (by omega), normalised_getElem hjc' (hreg j hjc')]
    have := ((validateControl_iff hgne hgv (iter_ascending hgs g hgm) hune hu.1 hlast hheads).1 hval).2.2
    omega

/-- **C151 fails** for series with different numbers of samples: `reconstruct` raises, whatever the model and the control input with these IDs. -/
theorem C151_lengths_violated (predict : List (Row Int V) → List (Row Int P) → List Int → Except WinErr (List (Row Int W))) {n : Nat} (hn : 1 ≤ n)
    {c : List (Row Int V)} {u : List (Row Int P)} (hc : c ≠ []) (hv : Valid c) (hs : IdsAscending c) {d : Int} (hreg : ∀ i, HasId c i → Regular (timesOf c i) d)
    (hlen : ∀ i, HasId c i → n ≤ (series c i).length) (hu : ∀ i, HasId u i ↔ HasId c i) {i j : Nat} (hi : HasId c i) (hj : HasId c j)
    (hij : (series c i).length ≠ (series c j).length) : ∃ e, (reconstructControl predict n c u).1 = .error e := by
  apply reconstruct_error
  intro s gs hsh hgs
  have hdelta := C11_regular hc hv .int hreg
  rw [shiftPerSeries_eq hc hv (Or.inl hs) hdelta hreg] at hsh
  simp only [Except.ok.injEq] at hsh
  subst hsh
  have hreg' : ∀ i, HasId (normalised c) i → Regular (timesOf (normalised c) i) d := fun i hi => normalised_regular (hreg i (normalised_hasId.1 hi))
  have hD := hasDeltas_int (normalised_ne_nil.2 hc) (normalised_valid hv) hreg'
  obtain ⟨gs', hgs', hg, hall, -⟩ := iter_order (normalised_ne_nil.2 hc) (normalised_valid hv) hD hn (fun i hi => by
    rw [normalised_series, List.length_map]; exact hlen i (normalised_hasId.1 hi))
  rw [hgs] at hgs'
  simp only [Except.ok.injEq] at hgs'
  subst hgs'
  obtain ⟨g, hgm, hgi⟩ := hall i (normalised_hasId.2 hi)
  obtain ⟨hgne, hgv, hgc⟩ := hg g hgm
  refine ⟨g, hgm, ?_⟩
  have hgj : ¬ HasId g.1 j := by
    intro hgj
    have h1 := (hgc i hgi).2.2
    rw [(hgc j hgj).2.2] at h1
    have h2 := congrArg List.length h1
    have h3 := hlen i hi
    have h4 := hlen j hj
    have e1 : (content (normalised c) i).length = (series c i).length := by rw [normalised_content]; simp [content]
    have e2 : (content (normalised c) j).length = (series c j).length := by rw [normalised_content]; simp [content]
    rw [List.length_drop, List.length_drop, List.length_map, List.length_map, e1, e2] at h2
    omega
  have hreq : checkRequiredIds g.1 (ids u) true ≠ none := by
    intro h
    obtain ⟨-, h2, -⟩ := (C115_required_ids_order hgv _).1 h
    exact hgj (h2 j (mem_ids.2 ((hu j).2 hj)))
  refine ⟨.controlIds, ?_⟩
  unfold validateControl
  rw [if_pos hreq]

/-- A controlled model that adds the first control value. -/
def addModel (ic : List (Row Int Int)) (u : List (Row Int Int)) (times : List Int) : Except WinErr (List (Row Int Int)) :=
  .ok ((ids ic).flatMap (fun i => times.map (fun t => ⟨i, t, ((series ic i).getLast?.map (·.val)).getD 0 + ((series u i).head?.map (·.val)).getD 0⟩)))

/-- The three cases of C151. -/
example : (reconstructControl addModel 1 [⟨0, 0, 1⟩, ⟨0, 5, 2⟩, ⟨3, 0, 5⟩, ⟨3, 5, 6⟩] [⟨0, 0, 10⟩, ⟨3, 0, 20⟩]).1 = .ok [⟨0, 0, 11⟩, ⟨0, 5, 11⟩, ⟨3, 0, 25⟩, ⟨3, 5, 25⟩] ∧
    (reconstructControl addModel 1 [⟨0, 5, 1⟩, ⟨0, 10, 2⟩] [⟨0, 5, 10⟩]).1 = .error .controlStart ∧
    (reconstructControl addModel 1 [⟨0, 0, 1⟩, ⟨0, 5, 2⟩, ⟨3, 0, 5⟩, ⟨3, 5, 6⟩, ⟨3, 10, 7⟩] [⟨0, 0, 10⟩, ⟨3, 0, 20⟩, ⟨3, 5, 30⟩]).1 = .error .controlIds := by
  decide +kernel

theorem flatMap_windows_nil {u : List (Row Int P)} {w : Nat} {offset : Int} (h : ∀ i, HasId u i → (series u i).length < w) : windowList u w offset = [] := by
  unfold windowList
  rw [List.flatMap_eq_nil_iff]
  intro i hi
  unfold windowsOf
  rw [List.map_eq_nil_iff, List.filter_eq_nil_iff]
  intro k _
  have := h i (mem_ids.1 hi)
  simp only [decide_eq_true_eq, not_le]
  omega

/-- **C151 fails** for windows: with control input as `fit` requires it (no control at the last state), a window that covers the series never works. -/
theorem C151_window_violated (predict : List (Row Int V) → List (Row Int P) → List Int → Except WinErr (List (Row Int W))) (dt : Int) {n w : Nat} (offset : Int)
    {c : List (Row Int V)} {u : List (Row Int P)} (hu : ControlFits c u 1) (hw : ∀ i, HasId c i → (series c i).length = w) :
    ∃ e, windowControl predict dt n w offset c (some u) = .error e := by
  have hshort : ∀ i, HasId u i → (series u i).length < w := by
    intro i hi
    have hi' := (hu.2.1 i).1 hi
    have h1 := congrArg List.length (hu.2.2 i hi')
    have h2 := hw i hi'
    have h3 := List.length_pos_iff.2 (hasId_iff_series.1 hi')
    simp [timesOf] at h1
    omega
  have hcw : ∃ e, controlWindows dt n w offset u = .error e := by
    unfold controlWindows
    split
    · exact ⟨_, rfl⟩
    split
    · exact ⟨_, rfl⟩
    have : ∃ e, windowFrames u w offset = .error e := by
      unfold windowFrames
      cases hi : iterWindows .int u w offset true with
      | error e => exact ⟨_, rfl⟩
      | ok ws =>
        obtain ⟨-, -, -, he⟩ := (C13_per_series hu.1 .int w offset ws).1 hi
        rw [Int.toNat_natCast] at he
        have : ws = [] := he.trans (flatMap_windows_nil (offset := offset) hshort)
        subst this
        exact ⟨.tsc .emptyList, rfl⟩
    obtain ⟨e, he⟩ := this
    rw [he]
    exact ⟨e, rfl⟩
  obtain ⟨e, he⟩ := hcw
  unfold windowControl windowCore
  simp only [he]
  split
  · exact ⟨_, rfl⟩
  split
  · exact ⟨_, rfl⟩
  split
  · exact ⟨_, rfl⟩
  split
  · exact ⟨_, rfl⟩
  split
  · exact ⟨_, rfl⟩
  split
  · exact ⟨_, rfl⟩
  · exact ⟨_, rfl⟩

/-- **C151 fails** for the score of windows: it never receives the control input, and complains about that (or, before, about the window size). -/
theorem C151_score_violated (predict : List (Row Int V) → List (Row Int P) → List Int → Except WinErr (List (Row Int W))) (dt : Int) (n w : Nat) (offset : Int)
    (score : List (Row Int W) → Rat) (c : List (Row Int V)) (u : List (Row Int P)) :
    windowScoreControl predict dt n w offset score c u = .error (if w ≤ n then .windowSize else .noControl) := by
  unfold windowScoreControl windowControl
  by_cases h : w ≤ n
  · simp only [if_pos h]
  · simp only [if_neg h]

example : windowControl addModel 5 1 2 1 [⟨0, 0, 1⟩, ⟨0, 5, 2⟩, ⟨0, 10, 3⟩] (some [⟨0, 0, 10⟩, ⟨0, 5, 20⟩, ⟨0, 10, 30⟩]) =
    .ok [⟨0, 0, 11⟩, ⟨0, 5, 11⟩, ⟨1, 5, 22⟩, ⟨1, 10, 22⟩] := by decide +kernel

end Verif.Edmd
