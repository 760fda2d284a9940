import Verif.Edmd.Stepwise
import Verif.Edmd.ClosedProps
import Verif.Tsc.TimeOpsProps
import Verif.Tsc.StatesProps
/-! # C152: stepwise predictions -/

namespace Verif.Edmd

open Verif.Tsc Verif.Np

variable {V : Type}

/-- Specification: the values of one series at the time values `times` after the first one. The next value is computed by `φ` from the last samples `w`; then the
oldest sample is dropped. -/
def roll (φ : List V → Int → Int → V) : List V → List Int → List V
  | w, a :: b :: ts => φ w a b :: roll φ (w.tail ++ [φ w a b]) (b :: ts)
  | _, _ => []

theorem roll_length (φ : List V → Int → Int → V) (w : List V) (times : List Int) : (roll φ w times).length = times.length - 1 := by
  fun_induction roll φ w times with
  | case1 w a b ts ih => simp [ih]
  | case2 l w h =>
    match l with
    | [] => rfl
    | [a] => rfl
    | a :: b :: l => exact absurd rfl (h a b l)

theorem roll_get (φ : List V → Int → Int → V) (w : List V) (times : List Int) (hw : w ≠ []) (k : Nat) (a b : Int) (ha : times[k]? = some a) (hb : times[k + 1]? = some b) :
    (roll φ w times)[k]? = some (φ (((w ++ roll φ w times).drop k).take w.length) a b) := by
  induction k generalizing w times with
  | zero =>
    match times, ha, hb with
    | x :: y :: l, ha, hb =>
      simp only [List.getElem?_cons_zero, Option.some.injEq, List.getElem?_cons_succ] at ha hb
      subst ha hb
      simp [roll]
  | succ k ih =>
    match times, ha, hb with
    | x :: y :: l, ha, hb =>
      simp only [List.getElem?_cons_succ] at ha hb
      obtain ⟨v, w', rfl⟩ := List.ne_nil_iff_exists_cons.1 hw
      rw [roll, List.getElem?_cons_succ, ih (List.tail (v :: w') ++ [φ (v :: w') x y]) (y :: l) (by simp) (by simpa using ha) (by simpa using hb)]
      simp

theorem filter_window {α : Type} (L : List (Int × α)) (hL : (L.map (·.1)).Nodup) (k n : Nat) :
    L.filter (fun p => decide (p.1 ∈ ((L.map (·.1)).drop k).take n)) = (L.drop k).take n := by
  have e : L = L.take k ++ ((L.drop k).take n ++ (L.drop k).drop n) := by simp
  have hm : ((L.map (·.1)).drop k).take n = ((L.drop k).take n).map (·.1) := by simp [List.map_take, List.map_drop]
  rw [hm]
  generalize hA : L.take k = A at e
  generalize hB : (L.drop k).take n = B at e ⊢
  generalize hC : (L.drop k).drop n = C at e
  rw [e] at hL ⊢
  rw [List.map_append, List.map_append, List.nodup_append'] at hL
  obtain ⟨-, h2, h3⟩ := hL
  rw [List.nodup_append'] at h2
  rw [List.filter_append, List.filter_append]
  have f1 : A.filter (fun p => decide (p.1 ∈ B.map (·.1))) = [] := by
    rw [List.filter_eq_nil_iff]
    intro p hp hq
    exact h3 (List.mem_map.2 ⟨p, hp, rfl⟩) (List.mem_append_left _ (by simpa using hq))
  have f2 : B.filter (fun p => decide (p.1 ∈ B.map (·.1))) = B := by
    rw [List.filter_eq_self]
    intro p hp
    simpa using ⟨p.2, hp⟩
  have f3 : C.filter (fun p => decide (p.1 ∈ B.map (·.1))) = [] := by
    rw [List.filter_eq_nil_iff]
    intro p hp hq
    exact h2.2.2 (by simpa using hq) (List.mem_map.2 ⟨p, hp, rfl⟩)
  rw [f1, f2, f3]
  simp

theorem selectTimes_content (c : List (Row Int V)) (ts : List Int) (i : Nat) : content (selectTimes c ts) i = (content c i).filter (fun p => decide (p.1 ∈ ts)) := by
  unfold content selectTimes series
  rw [List.filter_comm, List.filter_map]
  rfl

/-- Replace the value at one time. -/
theorem setRows_ok {c f : List (Row Int V)} {b : Int} {u : Nat → V} (hid : ∀ i, HasId f i ↔ HasId c i) (hf : ∀ i, HasId c i → content f i = [(b, u i)])
    (hb : ∀ i, HasId c i → b ∈ timesOf c i) :
    ∃ d, setRows c f = .ok d ∧ d.map (·.key) = c.map (·.key) ∧ ∀ i, HasId c i → content d i = (content c i).map (fun p => (p.1, if p.1 = b then u i else p.2)) := by
  have hrow : ∀ s ∈ f, s.time = b ∧ s.val = u s.id := by
    intro s hs
    have h1 : (s.time, s.val) ∈ content f s.id := List.mem_map.2 ⟨s, mem_series.2 ⟨hs, rfl⟩, rfl⟩
    rw [hf s.id ((hid s.id).1 ⟨s, hs, rfl⟩)] at h1
    simpa using h1
  have hall : f.all (fun s => c.any (fun r => decide (r.key = s.key))) = true := by
    rw [List.all_eq_true]
    intro s hs
    rw [List.any_eq_true]
    have h1 := hb s.id ((hid s.id).1 ⟨s, hs, rfl⟩)
    obtain ⟨r, hr, hrt⟩ := List.mem_map.1 h1
    obtain ⟨hr, hri⟩ := mem_series.1 hr
    refine ⟨r, hr, ?_⟩
    apply decide_eq_true
    unfold Row.key
    rw [hri, hrt, (hrow s hs).1]
  have hrep : ∀ r ∈ c, replaceRow f r = ⟨r.id, r.time, if r.time = b then u r.id else r.val⟩ := by
    intro r hr
    unfold replaceRow
    cases hfind : f.find? (fun s => decide (s.key = r.key)) with
    | none =>
      simp only
      rw [List.find?_eq_none] at hfind
      by_cases ht : r.time = b
      · exfalso
        obtain ⟨s, hs, hsi⟩ := (hid r.id).2 ⟨r, hr, rfl⟩
        apply hfind s hs
        apply decide_eq_true
        unfold Row.key
        rw [hsi, (hrow s hs).1, ht]
      · rw [if_neg ht]
    | some s =>
      simp only
      have h1 := List.find?_some hfind
      have h2 := hrow s (List.mem_of_find?_eq_some hfind)
      simp only [decide_eq_true_eq, Row.key, Key.mk.injEq] at h1
      rw [if_pos (by rw [← h1.2, h2.1]), h2.2, h1.1]
  refine ⟨c.map (replaceRow f), by unfold setRows; rw [if_pos hall], ?_, ?_⟩
  · rw [List.map_map]
    apply List.map_congr_left
    intro r hr
    simp only [Function.comp]
    rw [hrep r hr]; rfl
  · intro i _
    have h1 : c.map (replaceRow f) = c.map (fun r => ⟨r.id, r.time, if r.time = b then u r.id else r.val⟩) := List.map_congr_left hrep
    rw [h1]
    unfold content series
    rw [List.filter_map, List.map_map, List.map_map]
    apply List.map_congr_left
    intro r hr
    have : r.id = i := by simpa using (List.mem_filter.1 hr).2
    simp [this]

theorem keys_facts {c d : List (Row Int V)} (h : d.map (·.key) = c.map (·.key)) : (Valid c → Valid d) ∧ (IdsAscending c → IdsAscending d) ∧ (∀ i, HasId d i ↔ HasId c i) ∧ timeValues d = timeValues c := by
  have hi : d.map (·.id) = c.map (·.id) := by
    have := congrArg (List.map (fun k : Key Int => k.id)) h
    simpa [Function.comp_def, Row.key] using this
  have ht : d.map (·.time) = c.map (·.time) := by
    have := congrArg (List.map (fun k : Key Int => k.time)) h
    simpa [Function.comp_def, Row.key] using this
  refine ⟨?_, ?_, ?_, ?_⟩
  · intro hv
    obtain ⟨h1, h2⟩ := hv
    refine ⟨by rw [hi]; exact h1, fun i j hij hj he => ?_⟩
    have hl : d.length = c.length := by simpa using congrArg List.length hi
    have hk : ∀ (k : Nat) (hk : k < d.length), d[k].id = c[k].id ∧ d[k].time = c[k].time := by
      intro k hk
      have e1 : (d.map (·.id))[k]? = (c.map (·.id))[k]? := by rw [hi]
      have e2 : (d.map (·.time))[k]? = (c.map (·.time))[k]? := by rw [ht]
      simp only [List.getElem?_map, List.getElem?_eq_getElem hk, List.getElem?_eq_getElem (show k < c.length by omega), Option.map_some, Option.some.injEq] at e1 e2
      exact ⟨e1, e2⟩
    have hi' := hk i (by omega)
    have hj' := hk j hj
    rw [hi'.2, hj'.2]
    exact h2 i j hij (by omega) (by rw [← hi'.1, ← hj'.1]; exact he)
  · unfold IdsAscending; rw [hi]; exact id
  · intro i
    rw [← mem_ids, ← mem_ids]; unfold ids; rw [hi]
  · unfold timeValues; rw [ht]

/-- The state of the loop after `k` iterations. -/
def StepInv (X : List (Row Int V)) (φ : Nat → List V → Int → Int → V) (fill : V) (times all : List Int) (k : Nat) (c : List (Row Int V)) : Prop :=
  Valid c ∧ IdsAscending c ∧ (∀ i, HasId c i ↔ HasId X i) ∧ ∀ i, HasId X i →
    content c i = all.zip ((content X i).map (·.2) ++ (roll (φ i) ((content X i).map (·.2)) times).take k ++ List.replicate (times.length - 1 - k) fill)

theorem zip_times {α : Type} (all : List Int) (vs : List α) (h : vs.length = all.length) : (all.zip vs).map (·.1) = all := by
  rw [List.map_fst_zip]; omega

/-- What a transform with prediction of one step has to do (`transform` and `_predict_dict_ic`): predict every series on its own, from its last `n` samples, by `φ`. -/
def IsStep (step : List (Row Int V) → List Int → Except StepErr (List (Row Int V))) (X : List (Row Int V)) (n : Nat) (φ : Nat → List V → Int → Int → V) (times : List Int) : Prop :=
  ∀ (cur : List (Row Int V)) (k : Nat) (a b : Int), times[k]? = some a → times[k + 1]? = some b → Valid cur → IdsAscending cur → (∀ i, HasId cur i ↔ HasId X i) →
    (∀ i, HasId X i → (series cur i).length = n ∧ (timesOf cur i).getLast? = some a) →
    ∃ r, step cur [a, b] = .ok r ∧ Valid r ∧ (∀ i, HasId r i ↔ HasId X i) ∧ ∀ i, HasId X i → ∃ v, content r i = [(a, v), (b, φ i ((content cur i).map (·.2)) a b)]

theorem stepBody_ok {step : List (Row Int V) → List Int → Except StepErr (List (Row Int V))} {X : List (Row Int V)} (hX : X ≠ []) {n : Nat} (hn : 1 ≤ n)
    {φ : Nat → List V → Int → Int → V} {fill : V} {t0 : Int} {ts hist : List Int} (hlen : hist.length = n - 1) (hall : (hist ++ t0 :: ts).Pairwise (· < ·))
    (hXt : ∀ i, HasId X i → timesOf X i = hist ++ [t0]) (hstep : IsStep step X n φ (t0 :: ts)) {k : Nat} (hk : k < ts.length) {c : List (Row Int V)}
    (hc : StepInv X φ fill (t0 :: ts) (hist ++ t0 :: ts) k c) :
    ∃ c', stepBody step n (t0 :: ts) (hist ++ t0 :: ts) c (n + k) = .ok c' ∧ StepInv X φ fill (t0 :: ts) (hist ++ t0 :: ts) (k + 1) c' := by
  obtain ⟨hv, ha, hid, hcon⟩ := hc
  set all := hist ++ t0 :: ts with hall'
  have hal : all.length = n + ts.length := by rw [hall']; simp; omega
  have hvals : ∀ i, HasId X i → ((content X i).map (·.2)).length = n := by
    intro i hi
    have := congrArg List.length (hXt i hi)
    simp [timesOf, content] at this ⊢
    omega
  have hvl : ∀ i, HasId X i → ((content X i).map (·.2) ++ (roll (φ i) ((content X i).map (·.2)) (t0 :: ts)).take k ++ List.replicate ((t0 :: ts).length - 1 - k) fill).length = all.length := by
    intro i hi
    rw [List.length_append, List.length_append, hvals i hi, List.length_take, roll_length, List.length_replicate, hal]
    simp only [List.length_cons]
    omega
  have hct : ∀ i, HasId X i → (content c i).map (·.1) = all := by
    intro i hi; rw [hcon i hi, zip_times _ _ (hvl i hi)]
  have hnd : all.Nodup := hall.imp (fun h => ne_of_lt h)
  have hget : ∀ j, all[n - 1 + j]? = (t0 :: ts)[j]? := by
    intro j; rw [hall', List.getElem?_append_right (by omega)]; congr 1; omega
  obtain ⟨a, hka⟩ : ∃ a, (t0 :: ts)[k]? = some a := ⟨_, List.getElem?_eq_getElem (by simp; omega)⟩
  obtain ⟨b, hkb⟩ : ∃ b, (t0 :: ts)[k + 1]? = some b := ⟨_, List.getElem?_eq_getElem (by simp; omega)⟩
  have hA : all[n + k - 1]? = some a := by rw [← hka, ← hget k]; congr 1; omega
  have hB : all[n + k]? = some b := by rw [← hkb, ← hget (k + 1)]; congr 1; omega
  have hpair : (all.drop (n + k - 1)).take 2 = [a, b] := by
    have h1 : n + k < all.length := by omega
    rw [List.drop_eq_getElem_cons (by omega)]
    have h2 : n + k - 1 + 1 = n + k := by omega
    simp only [h2]
    rw [List.drop_eq_getElem_cons h1]
    rw [List.getElem?_eq_getElem (by omega), Option.some.injEq] at hA hB
    simp [hA, hB]
  have hwin : n + k - n = k := by omega
  -- the current samples
  have hcurc : ∀ i, HasId X i → content (selectTimes c ((all.drop k).take n)) i = ((content c i).drop k).take n := by
    intro i hi
    rw [selectTimes_content]
    have := filter_window (content c i) (by rw [hct i hi]; exact hnd) k n
    rw [hct i hi] at this
    exact this
  have hcurlen : ∀ i, HasId X i → (content (selectTimes c ((all.drop k).take n)) i).length = n := by
    intro i hi
    have h1 : (content c i).length = all.length := by rw [← hct i hi, List.length_map]
    rw [hcurc i hi, List.length_take, List.length_drop]
    omega
  set cur := selectTimes c ((all.drop k).take n) with hcur
  have hsub : cur.Sublist c := List.filter_sublist
  have hcurid : ∀ i, HasId cur i ↔ HasId X i := by
    intro i
    constructor
    · rintro ⟨r, hr, rfl⟩; exact (hid r.id).1 ⟨r, hsub.subset hr, rfl⟩
    · intro hi
      have := hcurlen i hi
      rw [hasId_iff_series]
      intro h
      rw [content, h] at this
      simp at this
      omega
  obtain ⟨i0, hi0⟩ : ∃ i, HasId X i := by
    obtain ⟨r0, l, hl⟩ := List.ne_nil_iff_exists_cons.1 hX
    exact ⟨r0.id, r0, by rw [hl]; simp, rfl⟩
  have hcurne : cur ≠ [] := by obtain ⟨r, hr, -⟩ := (hcurid i0).2 hi0; exact List.ne_nil_of_mem hr
  have hcurv : Valid cur := hv.sublist hsub
  have hcura : IdsAscending cur := by
    unfold IdsAscending at ha ⊢
    exact ha.sublist (hsub.map _)
  have hlast : ∀ i, HasId X i → (series cur i).length = n ∧ (timesOf cur i).getLast? = some a := by
    intro i hi
    refine ⟨by have := hcurlen i hi; simpa [content] using this, ?_⟩
    have h1 : timesOf cur i = ((all.drop k).take n) := by
      have : timesOf cur i = (content cur i).map (·.1) := by simp [timesOf, content]
      rw [this, hcurc i hi, List.map_take, List.map_drop, hct i hi]
    have h2 : ((all.drop k).take n).length = n := by rw [List.length_take, List.length_drop]; omega
    rw [h1, List.getLast?_eq_getElem?, h2, List.getElem?_take_of_lt (by omega), List.getElem?_drop, ← hA]
    congr 1; omega
  obtain ⟨r, hr, hrv, hrid, hrc⟩ := hstep cur k a b hka hkb hcurv hcura hcurid hlast
  have hrne : r ≠ [] := by obtain ⟨q, hq, -⟩ := (hrid i0).2 hi0; exact List.ne_nil_of_mem hq
  have hrlen : ∀ i, HasId X i → (series r i).length = 2 := by
    intro i hi
    obtain ⟨v, hv'⟩ := hrc i hi
    have := congrArg List.length hv'
    simpa [content] using this
  have hsteps : nTimesteps r = .one 2 := (nTimesteps_one hrne 2).2 (fun i hi => hrlen i ((hrid i).1 (mem_ids.1 hi)))
  obtain ⟨f, hf, -, hfid, hfser⟩ := (C06_final hrne hrv 1).1 ⟨le_refl _, fun i hi => by rw [hrlen i ((hrid i).1 hi)]; norm_num⟩
  have hfc : ∀ i, HasId X i → content f i = [(b, φ i ((content cur i).map (·.2)) a b)] := by
    intro i hi
    obtain ⟨v, hv'⟩ := hrc i hi
    have : content f i = (content r i).drop ((series r i).length - 1) := by
      unfold content; rw [hfser, List.map_drop]; simp
    rw [this, hrlen i hi, hv']
    rfl
  obtain ⟨d, hd, hdk, hdc⟩ := setRows_ok (c := c) (f := f) (b := b) (u := fun i => φ i ((content cur i).map (·.2)) a b) (fun i => by rw [hfid, hrid, hid])
    (fun i hi => hfc i ((hid i).1 hi)) (fun i hi => by
      have : timesOf c i = (content c i).map (·.1) := by simp [timesOf, content]
      rw [this, hct i ((hid i).1 hi)]
      exact List.mem_of_getElem? hB)
  obtain ⟨e1, e2, e3, -⟩ := keys_facts hdk
  refine ⟨d, ?_, e1 hv, e2 ha, fun i => (e3 i).trans (hid i), ?_⟩
  · unfold stepBody
    simp only [hwin]
    have h2 : ((all.drop k).take n).length = n := by rw [List.length_take, List.length_drop]; omega
    have hl : ((all.drop k).take n).getLast? = (t0 :: ts)[k]? := by
      rw [List.getLast?_eq_getElem?, h2, List.getElem?_take_of_lt (by omega), List.getElem?_drop, hka, ← hA]
      congr 1; omega
    rw [if_neg (by rw [hl]; simp), ← hcur, build_ok_of_valid hcurv hcurne]
    simp only [hpair, hr, if_neg (show ¬ nTimesteps r ≠ .one 2 by rw [hsteps]; simp), hf, hd]
  · intro i hi
    have hroll := roll_get (φ i) ((content X i).map (·.2)) (t0 :: ts) (by have := hvals i hi; intro h; rw [h] at this; simp at this; omega) k a b hka hkb
    rw [hvals i hi] at hroll
    -- the window of values
    have hw : (content cur i).map (·.2) = (((content X i).map (·.2) ++ roll (φ i) ((content X i).map (·.2)) (t0 :: ts)).drop k).take n := by
      rw [hcurc i hi, hcon i hi, List.map_take, List.map_drop, List.map_snd_zip (by rw [hvl i hi])]
      generalize hW : (content X i).map (·.2) = W
      have hWl : W.length = n := by rw [← hW]; exact hvals i hi
      generalize hR : roll (φ i) W (t0 :: ts) = R
      have hRl : R.length = ts.length := by rw [← hR, roll_length]; simp
      apply List.ext_getElem?
      intro j
      by_cases hj : j < n
      · rw [List.getElem?_take_of_lt hj, List.getElem?_take_of_lt hj, List.getElem?_drop, List.getElem?_drop,
          List.getElem?_append_left (by rw [List.length_append, List.length_take]; omega)]
        by_cases hj2 : k + j < W.length
        · rw [List.getElem?_append_left hj2, List.getElem?_append_left hj2]
        · rw [List.getElem?_append_right (by omega), List.getElem?_append_right (by omega), List.getElem?_take_of_lt (by omega)]
      · rw [List.getElem?_eq_none (by rw [List.length_take]; omega), List.getElem?_eq_none (by rw [List.length_take]; omega)]
    rw [hdc i ((hid i).2 hi), hw]
    have hrk : ∀ R : List V, R[k]? = some (φ i ((((content X i).map (·.2) ++ roll (φ i) ((content X i).map (·.2)) (t0 :: ts)).drop k).take n) a b) →
        R.take (k + 1) = R.take k ++ [φ i ((((content X i).map (·.2) ++ roll (φ i) ((content X i).map (·.2)) (t0 :: ts)).drop k).take n) a b] := by
      intro R hR
      rw [List.take_add_one, hR]; rfl
    rw [hrk _ hroll]
    generalize φ i ((((content X i).map (·.2) ++ roll (φ i) ((content X i).map (·.2)) (t0 :: ts)).drop k).take n) a b = new
    rw [hcon i hi]
    have hrep : List.replicate ((t0 :: ts).length - 1 - k) fill = fill :: List.replicate ((t0 :: ts).length - 1 - (k + 1)) fill := by
      rw [show (t0 :: ts).length - 1 - k = ((t0 :: ts).length - 1 - (k + 1)) + 1 by simp; omega, List.replicate_succ]
    have hpl : ((content X i).map (·.2) ++ (roll (φ i) ((content X i).map (·.2)) (t0 :: ts)).take k).length = n + k := by
      rw [List.length_append, hvals i hi, List.length_take, roll_length]; simp; omega
    rw [hrep, ← List.append_assoc]
    generalize (content X i).map (·.2) ++ (roll (φ i) ((content X i).map (·.2)) (t0 :: ts)).take k = P at hpl ⊢
    generalize List.replicate ((t0 :: ts).length - 1 - (k + 1)) fill = Q
    apply List.ext_getElem?
    intro j
    rw [List.getElem?_map, List.append_assoc]
    simp only [List.singleton_append]
    simp only [List.zip, List.getElem?_zipWith]
    by_cases hj : j = n + k
    · subst hj
      rw [hB, ← hpl]
      simp
    · have hne : ∀ t, all[j]? = some t → t ≠ b := by
        rintro t ht rfl
        obtain ⟨h1, h2⟩ := List.getElem?_eq_some_iff.1 ht
        obtain ⟨h3, h4⟩ := List.getElem?_eq_some_iff.1 hB
        exact hj ((hnd.getElem_inj_iff).1 (h2.trans h4.symm))
      have hsame : (P ++ fill :: Q)[j]? = (P ++ new :: Q)[j]? := by
        by_cases h : j < P.length
        · rw [List.getElem?_append_left h, List.getElem?_append_left h]
        · rw [List.getElem?_append_right (by omega), List.getElem?_append_right (by omega)]
          obtain ⟨m, hm⟩ : ∃ m, j - P.length = m + 1 := ⟨j - P.length - 1, by omega⟩
          rw [hm]; simp
      rw [hsame]
      cases h1 : all[j]? with
      | none => rfl
      | some t =>
        cases h2 : (P ++ new :: Q)[j]? with
        | none => rfl
        | some x => simp [hne t h1]

theorem stepLoop_ok {step : List (Row Int V) → List Int → Except StepErr (List (Row Int V))} {X : List (Row Int V)} (hX : X ≠ []) {n : Nat} (hn : 1 ≤ n)
    {φ : Nat → List V → Int → Int → V} {fill : V} {t0 : Int} {ts hist : List Int} (hlen : hist.length = n - 1) (hall : (hist ++ t0 :: ts).Pairwise (· < ·))
    (hXt : ∀ i, HasId X i → timesOf X i = hist ++ [t0]) (hstep : IsStep step X n φ (t0 :: ts)) (m k : Nat) (hk : k + m = ts.length) {c : List (Row Int V)}
    (hc : StepInv X φ fill (t0 :: ts) (hist ++ t0 :: ts) k c) :
    ∃ c', stepLoop step n (t0 :: ts) (hist ++ t0 :: ts) m (n + k) c = .ok c' ∧ StepInv X φ fill (t0 :: ts) (hist ++ t0 :: ts) ts.length c' := by
  induction m generalizing k c with
  | zero => exact ⟨c, rfl, by have : k = ts.length := by omega
                              rw [← this]; exact hc⟩
  | succ m ih =>
    obtain ⟨c', h1, h2⟩ := stepBody_ok hX hn hlen hall hXt hstep (by omega : k < ts.length) hc
    obtain ⟨d, h3, h4⟩ := ih (k + 1) (by omega) h2
    refine ⟨d, ?_, h4⟩
    simp only [stepLoop, h1]
    exact h3

/-- **C152.** Stepwise prediction of initial conditions with the common time values `hist ++ [t0]` (`n` samples) at increasing time values `t0 :: ts`: the value at every
requested time value is the one-step prediction `φ` from the last `n` values of the same series, measured or predicted. -/
theorem C152_stepwise_partial {step : List (Row Int V) → List Int → Except StepErr (List (Row Int V))} {X : List (Row Int V)} (hX : X ≠ []) (hv : Valid X) (ha : IdsAscending X)
    {n : Nat} (hn : 1 ≤ n) {φ : Nat → List V → Int → Int → V} (fill : V) {t0 : Int} {ts hist : List Int} (hlen : hist.length = n - 1) (hall : (hist ++ t0 :: ts).Pairwise (· < ·))
    (hts : ts ≠ [] ∨ nTimeseries X ≠ 1) (hXt : ∀ i, HasId X i → timesOf X i = hist ++ [t0]) (hstep : IsStep step X n φ (t0 :: ts)) :
    ∃ r, stepwise step n fill X (t0 :: ts) = .ok r ∧ Valid r ∧ IdsAscending r ∧ (∀ i, HasId r i ↔ HasId X i) ∧
      ∀ i, HasId X i → content r i = (t0 :: ts).zip (((content X i).map (·.2)).drop (n - 1) ++ roll (φ i) ((content X i).map (·.2)) (t0 :: ts)) := by
  obtain ⟨i0, hi0⟩ : ∃ i, HasId X i := by
    obtain ⟨r0, l, hl⟩ := List.ne_nil_iff_exists_cons.1 hX
    exact ⟨r0.id, r0, by rw [hl]; simp, rfl⟩
  have hvals : ∀ i, HasId X i → ((content X i).map (·.2)).length = n := by
    intro i hi
    have := congrArg List.length (hXt i hi)
    simp [timesOf, content] at this ⊢
    omega
  have hcX : ∀ i, HasId X i → (content X i).map (·.1) = hist ++ [t0] := by
    intro i hi; rw [← hXt i hi]; simp [timesOf, content]
  have hts_sorted : ts.Pairwise (· < ·) := by
    rw [List.pairwise_append] at hall
    exact (List.pairwise_cons.1 hall.2.1).2
  have hlater : ∀ t ∈ ts, ∀ r ∈ X, r.time < t := by
    intro t ht r hr
    have h1 : r.time ∈ timesOf X r.id := List.mem_map.2 ⟨r, mem_series.2 ⟨hr, rfl⟩, rfl⟩
    rw [hXt r.id ⟨r, hr, rfl⟩] at h1
    rw [show hist ++ t0 :: ts = (hist ++ [t0]) ++ ts by simp, List.pairwise_append] at hall
    exact hall.2.2 _ h1 t ht
  have hexp : ∃ c, expandTimeValues X ts fill = .ok c ∧ Valid c ∧ IdsAscending c ∧ (∀ i, HasId c i ↔ HasId X i) ∧
      ∀ i, HasId X i → content c i = content X i ++ ts.map (fun t => (t, fill)) := by
    by_cases h1 : nTimeseries X = 1
    · have hts' : ts ≠ [] := by rcases hts with h | h; exact h; exact absurd h1 h
      have hone : ∀ r ∈ X, r.id = i0 := by
        intro r hr
        unfold nTimeseries at h1
        obtain ⟨x, hx⟩ := List.length_eq_one_iff.1 h1
        have h2 : r.id ∈ ids X := mem_ids.2 ⟨r, hr, rfl⟩
        have h3 := mem_ids.2 hi0
        rw [hx, List.mem_singleton] at h2 h3
        rw [h2, h3]
      obtain ⟨h2, h3⟩ := C120_one hX hv hone ts fill
      obtain ⟨c, hc⟩ := h2.2 ⟨hts', hts_sorted.imp (fun h => ne_of_lt h), hlater⟩
      obtain ⟨h4, h5, h6⟩ := h3 c hc
      have hX1 : ∀ i, HasId X i ↔ i = i0 := by
        intro i
        constructor
        · rintro ⟨r, hr, rfl⟩; exact hone r hr
        · rintro rfl; exact hi0
      refine ⟨c, hc, h4, ?_, fun i => by rw [h5, hX1], ?_⟩
      · unfold IdsAscending
        rw [List.pairwise_map]
        apply List.pairwise_of_forall_mem_list
        intro a ha' b hb'
        rw [(h5 _).1 ⟨a, ha', rfl⟩, (h5 _).1 ⟨b, hb', rfl⟩]
      · intro i hi
        rw [(hX1 i).1 hi, h6]
        congr 2
        apply List.mergeSort_of_pairwise
        exact hts_sorted.imp (fun h => by simpa using le_of_lt h)
    · have hsame : isSameTimeValues X = true := by
        rw [C10_same_time_values hX hv]
        intro i j hi hj
        rw [hcX i hi, hcX j hj]
      obtain ⟨c, hc, h2, h3, h4, h5⟩ := expand_several hX hv h1 hsame ts fill (hts_sorted.imp (fun h => ne_of_lt h)) (fun t ht r hr => ne_of_lt (hlater t ht r hr))
      refine ⟨c, hc, h2, h3, h4, fun i hi => ?_⟩
      obtain ⟨m, hm⟩ := List.mem_iff_getElem?.1 (mem_ids.2 hi)
      obtain ⟨hperm, hsort⟩ := h5 m i i (by rw [newIds_eq_ids ha]; exact hm) hm
      have hsort' : ((content X i ++ ts.map (fun t => (t, fill))).map (·.1)).Pairwise (· < ·) := by
        rw [List.map_append, hcX i hi, List.map_map]
        have : (Prod.fst ∘ fun t : Int => (t, fill)) = id := rfl
        rw [this, List.map_id, List.append_assoc]
        exact hall
      apply hperm.eq_of_pairwise (le := fun p q => p.1 < q.1)
      · intro p q _ _ h1 h2; omega
      · rwa [List.pairwise_map] at hsort
      · rwa [List.pairwise_map] at hsort'
  obtain ⟨c, hc, hcv, hca, hcid, hcc⟩ := hexp
  have hcne : c ≠ [] := by obtain ⟨q, hq, -⟩ := (hcid i0).2 hi0; exact List.ne_nil_of_mem hq
  have hct : ∀ i, HasId X i → (content c i).map (·.1) = hist ++ t0 :: ts := by
    intro i hi
    rw [hcc i hi, List.map_append, hcX i hi, List.map_map]
    have : (Prod.fst ∘ fun t : Int => (t, fill)) = id := rfl
    rw [this, List.map_id, List.append_assoc]; rfl
  have htv : timeValues c = hist ++ t0 :: ts := by
    have hs : isSameTimeValues c = true := by
      rw [C10_same_time_values hcne hcv]
      intro i j hi hj
      rw [hct i ((hcid i).1 hi), hct j ((hcid j).1 hj)]
    rw [← (sameTimes_blocks hcne hcv hs).1 i0 ((hcid i0).2 hi0), hct i0 hi0]
  have hinv : StepInv X φ fill (t0 :: ts) (hist ++ t0 :: ts) 0 c := by
    refine ⟨hcv, hca, hcid, fun i hi => ?_⟩
    rw [hcc i hi, List.take_zero, List.append_nil]
    have h1 : hist ++ t0 :: ts = (hist ++ [t0]) ++ ts := by simp
    rw [h1, List.zip_append (by rw [hvals i hi]; simp; omega)]
    congr 1
    · conv_lhs => rw [← List.map_id (content X i)]
      rw [← hcX i hi, List.zip_map']
      rfl
    · have : (t0 :: ts).length - 1 - 0 = ts.length := by simp
      rw [this, zip_replicate_map]
  obtain ⟨d, hd, hdv, hda, hdid, hdc⟩ := stepLoop_ok hX hn hlen hall hXt hstep ts.length 0 (by omega) hinv
  have hdfin : ∀ i, HasId X i → content d i = (hist ++ t0 :: ts).zip ((content X i).map (·.2) ++ roll (φ i) ((content X i).map (·.2)) (t0 :: ts)) := by
    intro i hi
    rw [hdc i hi]
    have h1 : (t0 :: ts).length - 1 - ts.length = 0 := by simp
    rw [h1, List.replicate_zero, List.append_nil, List.take_of_length_le (by rw [roll_length]; simp)]
  have hdrop : ∀ i, HasId X i → (content d i).drop (n - 1) = (t0 :: ts).zip (((content X i).map (·.2)).drop (n - 1) ++ roll (φ i) ((content X i).map (·.2)) (t0 :: ts)) := by
    intro i hi
    rw [hdfin i hi, List.zip, List.drop_zipWith, ← hlen, List.drop_left, List.drop_append_of_le_length (by rw [hvals i hi]; omega)]
  have hd' : stepLoop step n (t0 :: ts) (timeValues c) ((t0 :: ts).length - 1) n c = .ok d := by
    rw [htv]; simpa using hd
  unfold stepwise
  rw [List.tail_cons, hc]
  simp only [hd']
  by_cases h1 : 1 < n
  · rw [if_pos h1]
    have hsub : (selectTimes d (t0 :: ts)).Sublist d := List.filter_sublist
    have hselc : ∀ i, HasId X i → content (selectTimes d (t0 :: ts)) i = (content d i).drop (n - 1) := by
      intro i hi
      rw [selectTimes_content]
      have hdt : (content d i).map (·.1) = hist ++ t0 :: ts := by
        rw [hdfin i hi, zip_times _ _ (by rw [List.length_append, hvals i hi, roll_length]; simp; omega)]
      have := filter_window (content d i) (by rw [hdt]; exact hall.imp (fun h => ne_of_lt h)) (n - 1) (content d i).length
      rw [hdt, ← hlen, List.drop_left, hlen] at this
      rw [List.take_of_length_le (by have := congrArg List.length hdt; simp at this; simp; omega), List.take_of_length_le (by simp)] at this
      exact this
    have hselid : ∀ i, HasId (selectTimes d (t0 :: ts)) i ↔ HasId X i := by
      intro i
      constructor
      · rintro ⟨r, hr, rfl⟩; exact (hdid r.id).1 ⟨r, hsub.subset hr, rfl⟩
      · intro hi
        have h2 := hselc i hi
        rw [hdrop i hi] at h2
        rw [hasId_iff_series]
        intro h
        rw [content, h] at h2
        have h3 := congrArg List.length h2
        rw [List.length_zip, List.length_append, List.length_drop, hvals i hi] at h3
        simp at h3
        omega
    have hne : selectTimes d (t0 :: ts) ≠ [] := by obtain ⟨q, hq, -⟩ := (hselid i0).2 hi0; exact List.ne_nil_of_mem hq
    rw [build_ok_of_valid (hdv.sublist hsub) hne]
    refine ⟨_, rfl, hdv.sublist hsub, ?_, hselid, fun i hi => by rw [hselc i hi, hdrop i hi]⟩
    unfold IdsAscending at hda ⊢
    exact hda.sublist (hsub.map _)
  · rw [if_neg h1]
    refine ⟨d, rfl, hdv, hda, hdid, fun i hi => ?_⟩
    have : n = 1 := by omega
    have h2 := hdrop i hi
    rw [this, Nat.sub_self, List.drop_zero] at h2
    rw [h2, this]

/-- **C152 fails** for a single time value: one initial condition at its own time raises, whatever the model; the direct prediction returns the initial condition. -/
theorem C152_single_violated (step : List (Row Int V) → List Int → Except StepErr (List (Row Int V))) (n : Nat) (fill : V) (t0 : Int) {X : List (Row Int V)} (hX : X ≠ []) (hv : Valid X)
    {i : Nat} (hi : ∀ r ∈ X, r.id = i) : ∃ e, stepwise step n fill X [t0] = .error e := by
  unfold stepwise
  cases h : expandTimeValues X [t0].tail fill with
  | error e => exact ⟨_, rfl⟩
  | ok d =>
    exfalso
    have := ((C120_one hX hv hi [] fill).1.1 ⟨d, h⟩).1
    exact this rfl

section closed

open Verif.Dyn Verif.Dmd Matrix

variable {ι δ : Type} [Fintype ι] [Fintype δ] [DecidableEq δ]

theorem edmdStep_isStep (g : (ι → ℝ) → (δ → ℝ)) (K : Matrix δ δ ℝ) (B : Matrix δ ι ℝ) {dt : Int} (hdt : 0 < dt) {X : List (Row Int (ι → ℝ))} (hX : X ≠ []) (t0 : Int) {ks : List Nat}
    (hks : (0 :: ks).Pairwise (· < ·)) :
    IsStep (edmdStep g K B dt) X 1 (fun _ w a b => ((K ^ stepCount dt (b - a)) *ᵥ g (w.headD 0)) ᵥ* B) (timesAt t0 dt (0 :: ks)) := by
  intro cur k a b hka hkb hv ha hid hlast
  obtain ⟨s, hs, rfl⟩ : ∃ s, (0 :: ks)[k]? = some s ∧ t0 + (s : Int) * dt = a := by
    unfold timesAt at hka; rw [List.getElem?_map, Option.map_eq_some_iff] at hka; exact hka
  obtain ⟨s', hs', rfl⟩ : ∃ s', (0 :: ks)[k + 1]? = some s' ∧ t0 + (s' : Int) * dt = b := by
    unfold timesAt at hkb; rw [List.getElem?_map, Option.map_eq_some_iff] at hkb; exact hkb
  have hlt : s < s' := by
    obtain ⟨h1, rfl⟩ := List.getElem?_eq_some_iff.1 hs
    obtain ⟨h2, rfl⟩ := List.getElem?_eq_some_iff.1 hs'
    exact List.pairwise_iff_getElem.1 hks k (k + 1) h1 h2 (by omega)
  have hdiff : t0 + (s' : Int) * dt - (t0 + (s : Int) * dt) = ((s' - s : Nat) : Int) * dt := by
    rw [Nat.cast_sub hlt.le]; ring
  have hsum : t0 + (s : Int) * dt + ((s' - s : Nat) : Int) * dt = t0 + (s' : Int) * dt := by rw [← hdiff]; ring
  have hone : ∀ i, HasId cur i → (series cur i).length = 1 := fun i hi => (hlast i ((hid i).1 hi)).1
  have hnd : (cur.map (·.id)).Nodup := by
    rw [List.nodup_iff_count_le_one]
    intro i
    by_cases hi : HasId cur i
    · have := hone i hi
      rw [series, ← List.countP_eq_length_filter] at this
      rw [List.count, List.countP_map]
      rw [show (fun x : Nat => x == i) ∘ (fun r : Row Int (ι → ℝ) => r.id) = fun r => r.id == i from rfl]
      exact this.le
    · have : i ∉ cur.map (·.id) := fun h => hi (by obtain ⟨r, hr, rfl⟩ := List.mem_map.1 h; exact ⟨r, hr, rfl⟩)
      rw [List.count_eq_zero_of_not_mem this]; omega
  have hcne : cur ≠ [] := by
    obtain ⟨r0, l, hl⟩ := List.ne_nil_iff_exists_cons.1 hX
    obtain ⟨q, hq, -⟩ := (hid r0.id).2 ⟨r0, by rw [hl]; simp, rfl⟩
    exact List.ne_nil_of_mem hq
  obtain ⟨d, hd, hdv, -, hdid, hdc⟩ := C26_flowmap K dt (t0 + (s : Int) * dt) hdt (mapVal g cur) (mapVal_ne_nil.2 hcne) (by rw [mapVal_ids]; exact hnd) [s' - s] (by simp; omega)
  have htimes : timesAt (t0 + (s : Int) * dt) dt [0, s' - s] = [t0 + (s : Int) * dt, t0 + (s' : Int) * dt] := by
    simp only [timesAt, List.map_cons, List.map_nil, Nat.cast_zero, zero_mul, add_zero]
    rw [hsum]
  rw [htimes] at hd
  refine ⟨mapVal (fun z => z ᵥ* B) d, by simp only [edmdStep, edmdPredict, hd], mapVal_valid.2 hdv, fun i => by rw [mapVal_hasId, hdid, mapVal_hasId, hid], fun i hi => ?_⟩
  obtain ⟨r, hr⟩ := List.length_eq_one_iff.1 (hone i ((hid i).2 hi))
  have hrm : r ∈ cur ∧ r.id = i := mem_series.1 (by rw [hr]; simp)
  have h1 := hdc ⟨r.id, r.time, g r.val⟩ (List.mem_map.2 ⟨r, hrm.1, rfl⟩)
  refine ⟨(g r.val) ᵥ* B, ?_⟩
  rw [mapVal_content, ← hrm.2, h1]
  have h2 : content cur r.id = [(r.time, r.val)] := by unfold content; rw [hrm.2, hr]; rfl
  rw [h2]
  simp only
  rw [hdiff, stepCount_mul hdt]
  simp only [List.map_cons, List.map_nil, pow_zero, one_mulVec, Nat.cast_zero, zero_mul, add_zero, List.headD_cons]
  rw [hsum]

theorem roll_closed {S : Set (ι → ℝ)} {F : (ι → ℝ) → (ι → ℝ)} {g : (ι → ℝ) → (δ → ℝ)} {K : Matrix δ δ ℝ} {B : Matrix δ ι ℝ} (hcl : ClosedDictionary S F g K B) {dt : Int} (hdt : 0 < dt)
    (t0 : Int) {x : ι → ℝ} (hx : x ∈ S) (s0 : Nat) (ks : List Nat) (hks : (s0 :: ks).Pairwise (· < ·)) :
    roll (fun w a b => ((K ^ stepCount dt (b - a)) *ᵥ g (w.headD 0)) ᵥ* B) [F^[s0] x] (timesAt t0 dt (s0 :: ks)) = ks.map (fun s => F^[s] x) := by
  induction ks generalizing s0 with
  | nil => rfl
  | cons s ks ih =>
    have hlt : s0 < s := (List.pairwise_cons.1 hks).1 s (by simp)
    have hdiff : t0 + (s : Int) * dt - (t0 + (s0 : Int) * dt) = ((s - s0 : Nat) : Int) * dt := by
      rw [Nat.cast_sub hlt.le]; ring
    have hS := (closed_iterate hcl s0 x hx).1
    obtain ⟨h1, h2⟩ := closed_iterate hcl (s - s0) _ hS
    have h3 : F^[s - s0] (F^[s0] x) = F^[s] x := by rw [← Function.iterate_add_apply, Nat.sub_add_cancel hlt.le]
    have hstep : ((K ^ stepCount dt (t0 + (s : Int) * dt - (t0 + (s0 : Int) * dt))) *ᵥ g (F^[s0] x)) ᵥ* B = F^[s] x := by
      rw [hdiff, stepCount_mul hdt, h2, hcl.decode _ h1, h3]
    have := ih s (List.pairwise_cons.1 hks).2
    simp only [timesAt, List.map_cons, roll, List.headD_cons, List.tail_cons, List.nil_append] at this ⊢
    rw [hstep, this]

/-- **C152 (agreement).** For a model whose dictionary is closed under the dynamics, stepwise prediction and direct prediction give the same time series, at all increasing multiples of
the sampling interval; both are the states of the nonlinear system. -/
theorem C152_direct {S : Set (ι → ℝ)} {F : (ι → ℝ) → (ι → ℝ)} {g : (ι → ℝ) → (δ → ℝ)} {K : Matrix δ δ ℝ} {B : Matrix δ ι ℝ} (hcl : ClosedDictionary S F g K B) {dt : Int} (hdt : 0 < dt)
    (t0 : Int) {X : List (Row Int (ι → ℝ))} (hX : X ≠ []) (hv : Valid X) (ha : IdsAscending X) (hone : ∀ i, HasId X i → timesOf X i = [t0]) (hXS : ∀ r ∈ X, r.val ∈ S)
    {ks : List Nat} (hks : (0 :: ks).Pairwise (· < ·)) (hne : ks ≠ []) :
    ∃ r d, stepwise (edmdStep g K B dt) 1 0 X (timesAt t0 dt (0 :: ks)) = .ok r ∧ edmdPredict g K B dt X (timesAt t0 dt (0 :: ks)) = .ok d ∧ Valid r ∧
      (∀ i, HasId r i ↔ HasId X i) ∧ ∀ q ∈ X, content r q.id = (0 :: ks).map (fun (s : Nat) => (t0 + s * dt, F^[s] q.val)) ∧ content d q.id = content r q.id := by
  have hser : ∀ q ∈ X, series X q.id = [q] := by
    intro q hq
    have h1 := congrArg List.length (hone q.id ⟨q, hq, rfl⟩)
    simp only [timesOf, List.length_map, List.length_singleton] at h1
    obtain ⟨x, hx⟩ := List.length_eq_one_iff.1 h1
    have : q ∈ series X q.id := mem_series.2 ⟨hq, rfl⟩
    rw [hx, List.mem_singleton] at this
    rw [hx, this]
  have hnd : (X.map (·.id)).Nodup := by
    rw [List.nodup_iff_count_le_one]
    intro i
    by_cases hi : HasId X i
    · obtain ⟨q, hq, rfl⟩ := hi
      have := congrArg List.length (hser q hq)
      rw [series, ← List.countP_eq_length_filter] at this
      rw [List.count, List.countP_map]
      rw [show (fun x : Nat => x == q.id) ∘ (fun r : Row Int (ι → ℝ) => r.id) = fun r => r.id == q.id from rfl]
      exact this.le
    · have : i ∉ X.map (·.id) := fun h => hi (by obtain ⟨r, hr, rfl⟩ := List.mem_map.1 h; exact ⟨r, hr, rfl⟩)
      rw [List.count_eq_zero_of_not_mem this]; omega
  have hts := timesAt_pairwise (t0 := t0) hdt hks
  have hcons : timesAt t0 dt (0 :: ks) = t0 :: timesAt t0 dt ks := by simp [timesAt]
  have hstep := edmdStep_isStep g K B hdt hX t0 hks
  rw [hcons] at hstep hts
  obtain ⟨r, hr, hrv, -, hrid, hrc⟩ := C152_stepwise_partial hX hv ha (le_refl 1) (0 : ι → ℝ) (hist := []) rfl hts (Or.inl (by unfold timesAt; simpa using hne)) hone hstep
  obtain ⟨d, hd, -, -, -, hdc⟩ := C26_flowmap K dt t0 hdt (mapVal g X) (mapVal_ne_nil.2 hX) (by rw [mapVal_ids]; exact hnd) ks hks
  refine ⟨r, mapVal (fun z => z ᵥ* B) d, by rw [hcons]; exact hr, by simp only [edmdPredict, hd], hrv, hrid, fun q hq => ?_⟩
  have hc : content r q.id = (0 :: ks).map (fun (s : Nat) => (t0 + s * dt, F^[s] q.val)) := by
    rw [hrc q.id ⟨q, hq, rfl⟩, ← hcons]
    have h1 : (content X q.id).map (·.2) = [q.val] := by unfold content; rw [hser q hq]; rfl
    rw [h1]
    have h2 := roll_closed hcl hdt t0 (hXS q hq) 0 ks hks
    simp only [Function.iterate_zero, id_eq] at h2
    rw [h2]
    simp only [Nat.sub_self, List.drop_zero, List.singleton_append]
    have h3 : q.val :: ks.map (fun s => F^[s] q.val) = (0 :: ks).map (fun s => F^[s] q.val) := by simp
    rw [h3]
    unfold timesAt
    rw [List.zip_map']
  refine ⟨hc, ?_⟩
  rw [hc, mapVal_content, hdc ⟨q.id, q.time, g q.val⟩ (List.mem_map.2 ⟨q, hq, rfl⟩), List.map_map]
  apply List.map_congr_left
  intro s _
  obtain ⟨h3, h4⟩ := closed_iterate hcl s q.val (hXS q hq)
  simp only [Function.comp, h4, hcl.decode _ h3]

/-! ## C153 Koopman eigenfunctions -/

/-- **C153.** With a basis of eigenvectors, and a dictionary closed under the dynamics `F`: the evaluated eigenfunctions grow by their eigenvalue from each sample to its successor
(`ξ(F x) = λ ξ(x)`), and the Koopman modes reproduce the state, `x = V ξ(x)`; the index is the one of the data. -/
theorem C153_eigenfunctions {S : Set (ι → ℝ)} {F : (ι → ℝ) → (ι → ℝ)} {g : (ι → ℝ) → (δ → ℝ)} {K : Matrix δ δ ℝ} {B : Matrix δ ι ℝ} (hcl : ClosedDictionary S F g K B)
    {ev : δ → ℂ} {Ψ : Matrix δ δ ℂ} (hdiag : Diagonalises K ev Ψ) {left : Option (Matrix δ δ ℂ)} (hl : left = none ∨ left = leftEigenvectors K ev Ψ)
    {state : (δ → ℝ) → (δ → ℂ)} (hb : ∀ z, IsSpectralState left Ψ (toC z) (state z)) (X : List (Row Int (ι → ℝ))) (hXS : ∀ r ∈ X, r.val ∈ S)
    (hF : ∀ p ∈ snapshotPairs X, p.2 = F p.1) :
    (koopmanEigenfunction g state X).map (·.key) = X.map (·.key) ∧
    (∀ p ∈ snapshotPairs (koopmanEigenfunction g state X), ∀ k, p.2 k = ev k * p.1 k) ∧
    (koopmanEigenfunction g state X).map (fun r => ((toCM B)ᵀ * Ψ) *ᵥ r.val) = X.map (fun r => toC r.val) := by
  refine ⟨mapVal_keys _ _, ?_, ?_⟩
  · intro p hp k
    unfold koopmanEigenfunction at hp
    rw [mapVal_snapshotPairs] at hp
    obtain ⟨q, hq, rfl⟩ := List.mem_map.1 hp
    obtain ⟨r, hr, hrq⟩ := fst_mem_of_snapshotPairs hq
    have hS : q.1 ∈ S := hrq ▸ hXS r hr
    simp only
    rw [hF q hq, hcl.step q.1 hS]
    have h1 := spectralState_coord hdiag hl (hb (K *ᵥ g q.1))
    have h2 := spectralState_coord hdiag hl (hb (g q.1))
    have h3 : Ψ *ᵥ state (K *ᵥ g q.1) = Ψ *ᵥ (fun i => ev i * state (g q.1) i) := by
      rw [h1, ← diag_mulVec, Matrix.mulVec_mulVec, ← hdiag.mul, ← Matrix.mulVec_mulVec, h2, toCM_mulVec']
    have hu : IsUnit Ψ := (Matrix.isUnit_iff_isUnit_det Ψ).2 (isUnit_iff_ne_zero.2 hdiag.basis)
    exact congrFun (Matrix.mulVec_injective_of_isUnit hu h3) k
  · unfold koopmanEigenfunction mapVal
    rw [List.map_map]
    apply List.map_congr_left
    intro r hr
    simp only [Function.comp]
    rw [← Matrix.mulVec_mulVec, spectralState_coord hdiag hl (hb (g r.val)), toC_vecMul, hcl.decode _ (hXS r hr)]

/-- A diagonalisable system with a closed dictionary: `(x, x²)` for `x ↦ 2 x`. -/
example : ClosedDictionary Set.univ (fun x : Fin 1 → ℝ => fun _ => 2 * x 0) (fun x => ![x 0, x 0 ^ 2]) !![2, 0; 0, 4] !![1; 0] ∧
    Diagonalises !![2, 0; 0, 4] ![2, 4] !![1, 0; 0, 1] ∧ (∀ p ∈ snapshotPairs ([⟨0, 0, ![1]⟩, ⟨0, 1, ![2]⟩, ⟨0, 2, ![4]⟩] : List (Row Int (Fin 1 → ℝ))), p.2 = fun _ => 2 * p.1 0) := by
  refine ⟨⟨fun _ _ => trivial, ?_, ?_⟩, ⟨?_, ?_⟩, ?_⟩
  · intro x _
    funext i
    fin_cases i <;> simp [Matrix.mulVec, dotProduct, Fin.sum_univ_two] <;> ring
  · intro x _
    funext i
    fin_cases i
    simp [Matrix.vecMul, dotProduct, Fin.sum_univ_two]
  · intro k i
    fin_cases k <;> fin_cases i <;> simp [toCM, Matrix.mulVec, dotProduct, Fin.sum_univ_two]
  · simp [Matrix.det_fin_two]
  · have : snapshotPairs ([⟨0, 0, ![1]⟩, ⟨0, 1, ![2]⟩, ⟨0, 2, ![4]⟩] : List (Row Int (Fin 1 → ℝ))) = [(![1], ![2]), (![2], ![4])] := rfl
    rw [this]
    intro p hp
    simp only [List.mem_cons, List.not_mem_nil, or_false] at hp
    rcases hp with rfl | rfl <;> funext i <;> fin_cases i <;> norm_num

end closed

/-- A step that needs two samples: the sum of the last two values. -/
def fibStep (cur : List (Row Int Int)) (times : List Int) : Except StepErr (List (Row Int Int)) :=
  match times with
  | [a, b] => .ok ((ids cur).flatMap (fun i => [⟨i, a, 0⟩, ⟨i, b, ((series cur i).map (·.val)).sum⟩]))
  | _ => .error .pred

theorem fibStep_isStep {X : List (Row Int Int)} (hX : X ≠ []) {times : List Int} (ht : times.Pairwise (· < ·)) : IsStep fibStep X 2 (fun _ w _ _ => w.sum) times := by
  intro cur k a b hka hkb hv ha hid hlast
  have hab : a < b := by
    obtain ⟨h1, rfl⟩ := List.getElem?_eq_some_iff.1 hka
    obtain ⟨h2, rfl⟩ := List.getElem?_eq_some_iff.1 hkb
    exact List.pairwise_iff_getElem.1 ht k (k + 1) h1 h2 (by omega)
  have hser : ∀ i, i ∈ ids cur → series ((ids cur).flatMap (fun i => [(⟨i, a, 0⟩ : Row Int Int), ⟨i, b, ((series cur i).map (·.val)).sum⟩])) i =
      [⟨i, a, 0⟩, ⟨i, b, ((series cur i).map (·.val)).sum⟩] := by
    intro i hi
    rw [series_flatMap (ids_nodup cur) (fun i => [(⟨i, a, 0⟩ : Row Int Int), ⟨i, b, ((series cur i).map (·.val)).sum⟩]) (by simp), if_pos hi]
  refine ⟨_, rfl, valid_flatMap (ids_nodup cur) _ (by simp) (by simp [hab]), ?_, ?_⟩
  · intro i
    rw [← hid, ← mem_ids (c := cur)]
    constructor
    · rintro ⟨r, hr, rfl⟩
      obtain ⟨j, hj, hr⟩ := List.mem_flatMap.1 hr
      simp only [List.mem_cons, List.not_mem_nil, or_false] at hr
      rcases hr with rfl | rfl <;> exact hj
    · intro hi
      exact ⟨⟨i, a, 0⟩, List.mem_flatMap.2 ⟨i, hi, by simp⟩, rfl⟩
  · intro i hi
    refine ⟨0, ?_⟩
    unfold content
    rw [hser i (mem_ids.2 ((hid i).2 hi))]
    simp [Function.comp_def]

/-- `C152_stepwise_partial` at work for `n = 2` and two series. -/
example : ∃ r, stepwise fibStep 2 0 [⟨4, 0, 1⟩, ⟨4, 1, 1⟩, ⟨6, 0, 2⟩, ⟨6, 1, 5⟩] [1, 2, 3, 7] = .ok r ∧
    content r 4 = [(1, 1), (2, 2), (3, 3), (7, 5)] ∧ content r 6 = [(1, 5), (2, 7), (3, 12), (7, 19)] := by
  obtain ⟨r, h1, -, -, -, h2⟩ := C152_stepwise_partial (X := [⟨4, 0, 1⟩, ⟨4, 1, 1⟩, ⟨6, 0, 2⟩, ⟨6, 1, 5⟩]) (n := 2) (t0 := 1) (ts := [2, 3, 7]) (hist := [0]) (by simp)
    ((valid_iff _).2 (by unfold Before; decide)) (by unfold IdsAscending; decide) (by omega) (0 : Int) rfl (by decide) (Or.inl (by simp)) (by
      rintro i ⟨r, hr, rfl⟩
      simp only [List.mem_cons, List.not_mem_nil, or_false] at hr
      rcases hr with rfl | rfl | rfl | rfl <;> decide) (fibStep_isStep (by simp) (by decide))
  refine ⟨r, h1, ?_, ?_⟩
  · rw [h2 4 ⟨⟨4, 0, 1⟩, by simp, rfl⟩]; decide
  · rw [h2 6 ⟨⟨6, 0, 2⟩, by simp, rfl⟩]; decide

end Verif.Edmd
