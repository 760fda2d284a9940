import Verif.Mpc.ClosedLoop
import Verif.Tsc.TimeOpsProps
import Verif.Edmd.WindowProps
import Verif.Utils.SimulateProps
/-!
# Control of a system along a reference: properties (C154)
-/

namespace Verif.Mpc

open Verif.Np Verif.Tsc Verif.Edmd

variable {S E Z R W : Type}

/-! ## Specification -/

/-- A single time series with ID 0, sampled with interval `d`, that ends at time `t`. -/
def EndsAt {V : Type} (c : List (Row Int V)) (t d : Int) : Prop := ∀ (j : Nat) (r : Row Int V), c[j]? = some r → r.id = 0 ∧ r.time = t - ((c.length : Int) - 1 - j) * d

/-- The last `n` elements. -/
def lastN {α : Type} (n : Nat) (l : List α) : List α := l.drop (l.length - n)

/-- `w` is the reference over the next `h` samples from number `k` on; after its end the last sample of the reference is held. -/
def IsHeld (ref : List R) (k h : Nat) (w : List R) : Prop := w.length = h ∧ ∀ j, j < h → w[j]? = ref[min (k + j) (ref.length - 1)]?

/-- The fitted model lifts `nIc` regular samples to a single state at the time of the last sample. -/
def LiftsTo (l : Loop S E Z R W) (lz : List E → Z) : Prop :=
  ∀ (X : List (Row Int E)) (t : Int), X.length = l.nIc → EndsAt X t l.dt → l.lift X = [⟨0, t, lz (X.map (·.val))⟩]

/-- The system: a single state at time `t` and a control input at `t` give the state itself and the next state; the system may terminate. -/
def IsSystem (l : Loop S E Z R W) (f : S → W → Int → Int → Option S) : Prop :=
  ∀ (s : S) (w : W) (t t' : Int), 0 ≤ t → t < t' → l.eval [⟨0, t, s⟩] [⟨0, t, w⟩] [t, t'] = match f s w t t' with
    | some s' => .ok [⟨0, t, s⟩, ⟨0, t', s'⟩]
    | none => .error .terminated

/-- What the model has seen before step `k` of the steps `tr` (pairs of control input and new state). -/
def modelHistory (l : Loop S E Z R W) (Xic : List E) (tr : List (W × S)) (k : Nat) : List E := Xic ++ (tr.take k).map (fun p => l.augmented (p.2, some p.1))

/-- The state of the system before step `k`. -/
def stateBefore (s0 : S) (tr : List (W × S)) (k : Nat) : S := ((tr.take k).map (·.2)).getLastD s0

/-- `w` is the control input that the controller computes before step `k`: the first one of the optimal sequence for the next `horizon` samples of the reference. -/
def IsControlAt (l : Loop S E Z R W) (lz : List E → Z) (Xic : List E) (ref : List R) (tr : List (W × S)) (k : Nat) (w : W) : Prop :=
  ∃ (r : List R) (us : List W), IsHeld ref k l.horizon r ∧ l.solve (lz (lastN l.nIc (modelHistory l Xic tr k))) r = some us ∧ us.head? = some w

/-- The steps `tr` are a closed loop of controller and system, from time `t0` on. -/
def IsClosedLoop (l : Loop S E Z R W) (lz : List E → Z) (f : S → W → Int → Int → Option S) (t0 : Int) (s0 : S) (Xic : List E) (ref : List R) (tr : List (W × S)) : Prop :=
  ∀ (k : Nat) (p : W × S), tr[k]? = some p →
    IsControlAt l lz Xic ref tr k p.1 ∧ f (stateBefore s0 tr k) p.1 (t0 + k * l.dt) (t0 + (k + 1) * l.dt) = some p.2

/-- The system terminates in the step after `tr`. -/
def Terminates (l : Loop S E Z R W) (lz : List E → Z) (f : S → W → Int → Int → Option S) (t0 : Int) (s0 : S) (Xic : List E) (ref : List R) (tr : List (W × S)) : Prop :=
  ∃ w, IsControlAt l lz Xic ref tr tr.length w ∧ f (stateBefore s0 tr tr.length) w (t0 + tr.length * l.dt) (t0 + (tr.length + 1) * l.dt) = none

/-! ## Lemmas -/

theorem regular_times {l : List Int} {d a : Int} (h : ∀ p ∈ consecutive l, p.2 - p.1 = d) (ha : l.head? = some a) (j : Nat) (hj : j < l.length) : l[j]? = some (a + j * d) := by
  rw [List.getElem?_eq_getElem hj, regular_getElem h ha j hj]

theorem times_eq_grid {l : List Int} {a d : Int} (h : ∀ j, j < l.length → l[j]? = some (a + j * d)) : l = (List.range l.length).map (fun j : Nat => a + j * d) := by
  apply List.ext_getElem?
  intro j
  by_cases hj : j < l.length
  · rw [h j hj, List.getElem?_map, List.getElem?_range hj]
    rfl
  · rw [List.getElem?_eq_none (by omega), List.getElem?_eq_none (by simp; omega)]

theorem grid_pairwise {d : Int} (hd : 0 < d) (a : Int) (n : Nat) : ((List.range n).map (fun j : Nat => a + j * d)).Pairwise (· < ·) := by
  rw [List.pairwise_map]
  refine List.pairwise_lt_range.imp ?_
  intro x y hxy
  have : (x : Int) < y := by exact_mod_cast hxy
  nlinarith

/-- The reference over the horizon. -/
theorem reference_ok (l : Loop S E Z R W) (hh : 2 ≤ l.horizon) {ref : List (Row Int R)} {i : Nat} (hid : ∀ r ∈ ref, r.id = i) {t0 : Int} (hdt : 0 < l.dt) (hreg : Regular (ref.map (·.time)) l.dt)
    (h0 : (ref.map (·.time)).head? = some (t0 + l.dt)) {k : Nat} (hk : k + 1 < ref.length) :
    ∃ r, l.reference ref k = .ok r ∧ r.map (·.time) = (List.range l.horizon).map (fun j : Nat => (t0 + (k + 1) * l.dt) + j * l.dt) ∧ IsHeld (ref.map (·.val)) k l.horizon (r.map (·.val)) := by
  have hval : ∀ j, j < ref.length → (ref.map (·.time))[j]? = some (t0 + l.dt + j * l.dt) := fun j hj => regular_times hreg.2 h0 j (by simpa using hj)
  unfold Loop.reference
  simp only
  have hwlen : ((ref.drop k).take l.horizon).length = min l.horizon (ref.length - k) := by simp
  have hwget : ∀ j, j < min l.horizon (ref.length - k) → ((ref.drop k).take l.horizon)[j]? = ref[k + j]? := by
    intro j hj
    rw [List.getElem?_take_of_lt (by omega), List.getElem?_drop]
  by_cases hw : ((ref.drop k).take l.horizon).length = l.horizon
  · rw [if_neg (by simpa using hw)]
    rw [hwlen] at hw
    refine ⟨_, rfl, ?_, ?_, ?_⟩
    · apply List.ext_getElem?
      intro j
      by_cases hj : j < l.horizon
      · rw [List.getElem?_map, hwget j (by omega), ← List.getElem?_map, hval _ (by omega), List.getElem?_map, List.getElem?_range hj]
        simp only [Option.map_some, Option.some.injEq]
        push_cast
        ring
      · rw [List.getElem?_eq_none (by simp; omega), List.getElem?_eq_none (by simp; omega)]
    · rw [List.length_map, hwlen, hw]
    · intro j hj
      rw [List.getElem?_map, hwget j (by omega), ← List.getElem?_map, List.length_map, min_eq_left (by omega)]
  · rw [if_pos hw]
    rw [hwlen] at hw
    have hlen : ref.length - k < l.horizon := by omega
    have hdrop : (ref.drop k).take l.horizon = ref.drop k := List.take_of_length_le (by simp; omega)
    rw [hdrop] at hwget ⊢
    have hidw : ∀ r ∈ ref.drop k, r.id = i := fun r hr => hid r (List.mem_of_mem_drop hr)
    have hregw : Regular ((ref.drop k).map (·.time)) l.dt := by
      refine ⟨by simp; omega, ?_⟩
      intro p hp
      refine hreg.2 p (consecutive_take_drop (a := k) (b := l.horizon) ?_)
      rw [List.take_of_length_le (by simp; omega), ← List.map_drop]
      exact hp
    have hvw : Valid (ref.drop k) := by
      rw [valid_single hidw]
      have := regular_pairwise hdt hregw.2
      rwa [List.pairwise_map] at this
    obtain ⟨last, hl⟩ : ∃ last, (ref.drop k).getLast? = some last := by
      rw [← Option.isSome_iff_exists, List.getLast?_isSome]
      intro h
      have := congrArg List.length h
      simp at this
      omega
    have hlast : ref[ref.length - 1]? = some last := by
      rw [List.getLast?_eq_getElem?, List.getElem?_drop, List.length_drop] at hl
      rw [← hl]
      congr 1
      omega
    have hlt : last.time = t0 + l.dt + ((ref.length - 1 : Nat) : Int) * l.dt := by
      have := hval (ref.length - 1) (by omega)
      rw [List.getElem?_map, hlast] at this
      simpa using this
    have hlw : (ref.drop k).length < l.horizon := by simp; omega
    obtain ⟨hfill, -⟩ := fill_general hvw hidw hregw hlw last hl
    have hok : ∃ r, fillWithLast (ref.drop k) l.horizon = .ok r := by
      by_cases hi0 : i = 0
      · subst hi0
        obtain ⟨r, hr, -⟩ := C122_fill_partial hvw hidw hregw hlw last hl
        exact ⟨r, hr⟩
      · obtain ⟨r, hr, -⟩ := C122_violated hvw hi0 hidw hregw hlw last hl
        exact ⟨r, hr⟩
    obtain ⟨r, hr⟩ := hok
    have hre := hr
    rw [hfill, build_ok_iff] at hre
    rw [hr]
    have hre := hre.1.symm
    have hget : ∀ j, j < l.horizon → r[j]? = if j < ref.length - k then ref[k + j]? else some ⟨0, last.time + ((j - (ref.length - k) : Nat) + 1) * l.dt, last.val⟩ := by
      intro j hj
      rw [hre]
      split
      · rw [List.getElem?_append_left (by simp; omega), List.getElem?_drop]
      · rw [List.getElem?_append_right (by simp; omega), List.getElem?_map, heldSamples, List.getElem?_map, List.length_drop, List.getElem?_range (by omega)]
        rfl
    have hrlen : r.length = l.horizon := by
      rw [hre]
      simp [heldSamples]
      omega
    refine ⟨r, rfl, ?_, by simpa using hrlen, ?_⟩
    · apply List.ext_getElem?
      intro j
      by_cases hj : j < l.horizon
      · rw [List.getElem?_map, hget j hj, List.getElem?_map, List.getElem?_range hj]
        split
        · rw [← List.getElem?_map, hval _ (by omega)]
          simp only [Option.map_some, Option.some.injEq]
          push_cast
          ring
        · rename_i hge
          simp only [Option.map_some, Option.some.injEq, hlt]
          have e1 : ((ref.length - 1 : Nat) : Int) = ref.length - 1 := by omega
          have e2 : ((j - (ref.length - k) : Nat) : Int) = j - (ref.length - k) := by omega
          rw [e1, e2]
          ring
      · rw [List.getElem?_eq_none (by simp; omega), List.getElem?_eq_none (by simp; omega)]
    · intro j hj
      rw [List.getElem?_map, hget j hj, List.length_map]
      split
      · rw [min_eq_left (by omega), List.getElem?_map]
      · rw [min_eq_right (by omega), List.getElem?_map, hlast]
        rfl

theorem EndsAt.drop {V : Type} {c : List (Row Int V)} {t d : Int} (h : EndsAt c t d) (n : Nat) : EndsAt (c.drop n) t d := by
  intro j r hr
  rw [List.getElem?_drop] at hr
  have hlt := (List.getElem?_eq_some_iff.1 hr).1
  obtain ⟨h1, h2⟩ := h (n + j) r hr
  refine ⟨h1, ?_⟩
  rw [h2, List.length_drop]
  push_cast [show n ≤ c.length by omega]
  ring

theorem EndsAt.append {V : Type} {c : List (Row Int V)} {t d : Int} (h : EndsAt c t d) (v : V) : EndsAt (c ++ [⟨0, t + d, v⟩]) (t + d) d := by
  intro j r hr
  by_cases hj : j < c.length
  · rw [List.getElem?_append_left hj] at hr
    obtain ⟨h1, h2⟩ := h j r hr
    refine ⟨h1, ?_⟩
    rw [h2]
    simp
    ring
  · have hlt := (List.getElem?_eq_some_iff.1 hr).1
    simp at hlt
    have : j = c.length := by omega
    subst this
    simp at hr
    subst hr
    simp

theorem EndsAt.ids {V : Type} {c : List (Row Int V)} {t d : Int} (h : EndsAt c t d) : ∀ r ∈ c, r.id = 0 := by
  intro r hr
  obtain ⟨j, hj⟩ := List.mem_iff_getElem?.1 hr
  exact (h j r hj).1

theorem EndsAt.valid {V : Type} {c : List (Row Int V)} {t d : Int} (hd : 0 < d) (h : EndsAt c t d) : Valid c := by
  rw [valid_single h.ids, List.pairwise_iff_getElem]
  intro a b ha hb hab
  rw [(h a c[a] (List.getElem?_eq_getElem ha)).2, (h b c[b] (List.getElem?_eq_getElem hb)).2]
  have : (a : Int) < b := by exact_mod_cast hab
  nlinarith

theorem append_valid {V : Type} {c : List (Row Int V)} (hv : Valid c) (hid : ∀ r ∈ c, r.id = 0) {t t' : Int} (hl : ∀ r ∈ c, r.time ≤ t) (ht : t < t') (v : V) : Valid (c ++ [⟨0, t', v⟩]) := by
  rw [valid_single (i := 0)]
  · rw [List.pairwise_append]
    refine ⟨(valid_single hid).1 hv, List.pairwise_singleton _ _, ?_⟩
    intro a ha b hb
    rw [List.mem_singleton.1 hb]
    exact lt_of_le_of_lt (hl a ha) ht
  · intro r hr
    rcases List.mem_append.1 hr with h | h
    · exact hid r h
    · rw [List.mem_singleton.1 h]

/-- The control sequence of a lifted state that has a solution. -/
theorem horizonControl_ok (l : Loop S E Z R W) (hh : 2 ≤ l.horizon) (hdt : 0 < l.dt) {X : List (Row Int E)} {t : Int} {z : Z} (hX : l.lift X = [⟨0, t, z⟩]) {r : List (Row Int R)}
    (hr : r.map (·.time) = (List.range l.horizon).map (fun j : Nat => (t + l.dt) + j * l.dt)) {us : List W} (hs : l.solve z (r.map (·.val)) = some us) (hus : us.length = l.horizon) {w : W} (hw : us.head? = some w) :
    ∃ U, l.horizonControl X r = .ok U ∧ U.take 1 = [⟨0, t, w⟩] ∧ (timeValues r).headD 0 = t + l.dt := by
  have htv : timeValues r = (List.range l.horizon).map (fun j : Nat => (t + l.dt) + j * l.dt) := by
    rw [timeValues, hr, unique_of_pairwise (grid_pairwise hdt _ _)]
  have hhead : (timeValues r).head? = some (t + l.dt) := by
    obtain ⟨m, hm⟩ : ∃ m, l.horizon = m + 1 := ⟨l.horizon - 1, by omega⟩
    rw [htv, hm, List.range_succ_eq_map]
    simp
  have hrl : r.length = l.horizon := by
    have := congrArg List.length hr
    simpa using this
  unfold Loop.horizonControl
  rw [hX]
  simp only
  rw [if_neg (by simp [hhead]), if_neg (by simp [hrl]), hs]
  simp only
  rw [if_neg (by rw [hus, htv]; simp; omega)]
  obtain ⟨w', us', rfl⟩ : ∃ w' us', us = w' :: us' := List.ne_nil_iff_exists_cons.1 (by rintro rfl; simp at hw)
  simp only [List.head?_cons, Option.some.injEq] at hw
  subst hw
  have hp : (t :: (timeValues r).dropLast).Pairwise (· < ·) := by
    rw [List.pairwise_cons]
    constructor
    · intro a ha
      have := List.mem_of_mem_dropLast ha
      rw [htv] at this
      obtain ⟨j, -, rfl⟩ := List.mem_map.1 this
      have : (0 : Int) ≤ j * l.dt := by positivity
      omega
    · rw [htv]
      exact (grid_pairwise hdt _ _).sublist (List.dropLast_sublist _)
  have hv : Valid (List.zipWith (fun t u => (⟨0, t, u⟩ : Row Int W)) (t :: (timeValues r).dropLast) (w' :: us')) := by
    rw [valid_single (i := 0)]
    · have e : (List.zipWith (fun t u => (⟨0, t, u⟩ : Row Int W)) (t :: (timeValues r).dropLast) (w' :: us')).map (·.time) = t :: (timeValues r).dropLast := by
        rw [List.map_zipWith]
        simp only
        apply List.ext_getElem
        · rw [List.length_zipWith, hus, htv]
          simp
          omega
        · intro n h1 h2
          rw [List.getElem_zipWith]
      rw [← List.pairwise_map (f := (fun r : Row Int W => r.time)) (R := (· < ·)), e]
      exact hp
    · intro r hr
      obtain ⟨n, hn, rfl⟩ := List.getElem_of_mem hr
      rw [List.getElem_zipWith]
  rw [build_ok_of_valid hv (by simp)]
  refine ⟨_, rfl, by simp, ?_⟩
  rw [List.headD_eq_head?_getD, hhead]
  rfl

/-- What the loop has collected after the steps `tr`. -/
def collected (l : Loop S E Z R W) (sysIc : List (Row Int S)) (Xic : List (Row Int E)) (t0 : Int) (tr : List (W × S)) : LoopState S E W where
  sys := sysIc ++ tr.mapIdx (fun j p => ⟨0, t0 + (j + 1) * l.dt, p.2⟩)
  X := Xic ++ tr.mapIdx (fun j p => ⟨0, t0 + (j + 1) * l.dt, l.augmented (p.2, some p.1)⟩)
  U := tr.mapIdx (fun j p => ⟨0, t0 + j * l.dt, p.1⟩)

/-- The hypotheses of the positive part of C154. -/
structure LoopSetting (l : Loop S E Z R W) (lz : List E → Z) (f : S → W → Int → Int → Option S) (sysIc : List (Row Int S)) (Xic : List (Row Int E)) (ref : List (Row Int R)) (t0 : Int) (s0 : S) : Prop where
  /-- `KMPC` requires at least two samples -/
  horizon : 2 ≤ l.horizon
  dt : 0 < l.dt
  nIc : 1 ≤ l.nIc
  lift : LiftsTo l lz
  solve : ∀ (z : Z) (r : List R), r.length = l.horizon → ∃ us, l.solve z r = some us ∧ us.length = l.horizon
  system : IsSystem l f
  start : 0 ≤ t0
  sysValid : Valid sysIc
  sysIds : ∀ r ∈ sysIc, r.id = 0
  sysLast : sysIc.getLast? = some ⟨0, t0, s0⟩
  model : EndsAt Xic t0 l.dt
  modelLength : l.nIc ≤ Xic.length
  refIds : ∃ i, ∀ r ∈ ref, r.id = i
  refTimes : Regular (ref.map (·.time)) l.dt
  refStart : (ref.map (·.time)).head? = some (t0 + l.dt)

section loop

variable {l : Loop S E Z R W} {lz : List E → Z} {f : S → W → Int → Int → Option S} {sysIc : List (Row Int S)} {Xic : List (Row Int E)} {ref : List (Row Int R)} {t0 : Int} {s0 : S}

theorem collected_X (h : LoopSetting l lz f sysIc Xic ref t0 s0) (tr : List (W × S)) : EndsAt (collected l sysIc Xic t0 tr).X (t0 + tr.length * l.dt) l.dt := by
  induction tr using List.reverseRecOn with
  | nil => simpa [collected] using h.model
  | append_singleton tr p ih =>
    have := ih.append (l.augmented (p.2, some p.1))
    simp only [collected, List.mapIdx_append, List.length_append, List.length_singleton] at this ⊢
    simp only [List.mapIdx_cons, List.mapIdx_nil, Nat.zero_add]
    rw [← List.append_assoc]
    push_cast
    have e : t0 + (tr.length : Int) * l.dt + l.dt = t0 + (tr.length + 1) * l.dt := by ring
    rw [e] at this
    exact this

theorem collected_sys (h : LoopSetting l lz f sysIc Xic ref t0 s0) (tr : List (W × S)) :
    Valid (collected l sysIc Xic t0 tr).sys ∧ (∀ r ∈ (collected l sysIc Xic t0 tr).sys, r.id = 0 ∧ r.time ≤ t0 + tr.length * l.dt) ∧
      (collected l sysIc Xic t0 tr).sys.getLast? = some ⟨0, t0 + tr.length * l.dt, stateBefore s0 tr tr.length⟩ := by
  induction tr using List.reverseRecOn with
  | nil =>
    simp only [collected, List.mapIdx_nil, List.append_nil, List.length_nil, Nat.cast_zero, zero_mul, add_zero]
    refine ⟨h.sysValid, fun r hr => ⟨h.sysIds r hr, ?_⟩, by rw [h.sysLast]; rfl⟩
    exact last_time_max ((valid_single h.sysIds).1 h.sysValid) h.sysLast r hr
  | append_singleton tr p ih =>
    have hd := h.dt
    have e : (collected l sysIc Xic t0 (tr ++ [p])).sys = (collected l sysIc Xic t0 tr).sys ++ [⟨0, t0 + (tr.length + 1) * l.dt, p.2⟩] := by
      simp [collected, List.mapIdx_append]
    have el : ((tr ++ [p]).length : Int) = tr.length + 1 := by simp
    rw [e, el]
    refine ⟨append_valid ih.1 (fun r hr => (ih.2.1 r hr).1) (fun r hr => (ih.2.1 r hr).2) (by nlinarith) _, ?_, ?_⟩
    · intro r hr
      rcases List.mem_append.1 hr with h' | h'
      · refine ⟨(ih.2.1 r h').1, le_trans (ih.2.1 r h').2 (by nlinarith)⟩
      · rw [List.mem_singleton.1 h']
        exact ⟨rfl, le_refl _⟩
    · rw [stateBefore, List.take_length]
      simp

theorem collected_U (h : LoopSetting l lz f sysIc Xic ref t0 s0) (tr : List (W × S)) :
    Valid (collected l sysIc Xic t0 tr).U ∧ ∀ r ∈ (collected l sysIc Xic t0 tr).U, r.id = 0 ∧ r.time ≤ t0 + (tr.length - 1) * l.dt := by
  induction tr using List.reverseRecOn with
  | nil => exact ⟨(valid_single (i := 0) (by simp [collected])).2 (by simp [collected]), by simp [collected]⟩
  | append_singleton tr p ih =>
    have hd := h.dt
    have e : (collected l sysIc Xic t0 (tr ++ [p])).U = (collected l sysIc Xic t0 tr).U ++ [⟨0, t0 + tr.length * l.dt, p.1⟩] := by
      simp [collected, List.mapIdx_append]
    have el : ((tr ++ [p]).length : Int) = tr.length + 1 := by simp
    rw [e, el]
    refine ⟨append_valid ih.1 (fun r hr => (ih.2 r hr).1) (fun r hr => (ih.2 r hr).2) (by nlinarith) _, ?_⟩
    intro r hr
    rcases List.mem_append.1 hr with h' | h'
    · refine ⟨(ih.2 r h').1, le_trans (ih.2 r h').2 (by nlinarith)⟩
    · rw [List.mem_singleton.1 h']
      refine ⟨rfl, le_of_eq ?_⟩
      simp

theorem getLast_drop {α : Type} {c : List α} {a : α} (h : c.getLast? = some a) : c.drop (c.length - 1) = [a] := by
  obtain ⟨ys, rfl⟩ := List.getLast?_eq_some_iff.1 h
  simp

theorem augment_pair (t t' : Int) (s s' : S) (w : W) (ht : t ≠ t') :
    augmentControl ([⟨0, t, s⟩, ⟨0, t', s'⟩] : List (Row Int S)) [⟨0, t, w⟩] = .ok [⟨0, t, (s, none)⟩, ⟨0, t', (s', some w)⟩] := by
  simp [augmentControl, maskRows, exceptLastMask, exceptFirstMask, Row.key, List.lookup]
  have : (({ id := 0, time := t } : Key Int) == { id := 0, time := t' }) = false := by simp [ht]
  rw [this]

/-- One pass of the loop. -/
theorem pass_ok (h : LoopSetting l lz f sysIc Xic ref t0 s0) {tr : List (W × S)} (hk : tr.length + 1 < ref.length) :
    ∃ w, IsControlAt l lz (Xic.map (·.val)) (ref.map (·.val)) tr tr.length w ∧ ∀ augment : Bool,
      l.pass augment ref tr.length (collected l sysIc Xic t0 tr) =
        match f (stateBefore s0 tr tr.length) w (t0 + tr.length * l.dt) (t0 + (tr.length + 1) * l.dt) with
        | none => .ok (.inr ())
        | some s' => (l.collect augment (collected l sysIc Xic t0 tr) [⟨0, t0 + tr.length * l.dt, w⟩]
            [⟨0, t0 + tr.length * l.dt, stateBefore s0 tr tr.length⟩, ⟨0, t0 + (tr.length + 1) * l.dt, s'⟩]).map Sum.inl := by
  obtain ⟨i, hi⟩ := h.refIds
  have hdt := h.dt
  obtain ⟨r, hr, hrt, hrv⟩ := reference_ok l h.horizon hi h.dt h.refTimes h.refStart hk
  have hX := collected_X h tr
  have hXl : (collected l sysIc Xic t0 tr).X.length = Xic.length + tr.length := by simp [collected]
  have hm := h.modelLength
  have hlift := h.lift ((collected l sysIc Xic t0 tr).X.drop ((collected l sysIc Xic t0 tr).X.length - l.nIc)) _ (by rw [List.length_drop, hXl]; omega) (hX.drop _)
  have hz : ((collected l sysIc Xic t0 tr).X.drop ((collected l sysIc Xic t0 tr).X.length - l.nIc)).map (·.val) = lastN l.nIc (modelHistory l (Xic.map (·.val)) tr tr.length) := by
    have e : (collected l sysIc Xic t0 tr).X.map (·.val) = modelHistory l (Xic.map (·.val)) tr tr.length := by
      simp only [collected, modelHistory, List.map_append, List.take_length, List.append_cancel_left_eq]
      apply List.ext_getElem
      · simp
      · intro n h1 h2
        simp
    rw [lastN, ← e, List.map_drop, List.length_map]
  rw [hz] at hlift
  obtain ⟨us, hus, hul⟩ := h.solve (lz (lastN l.nIc (modelHistory l (Xic.map (·.val)) tr tr.length))) (r.map (·.val)) hrv.1
  have hne : us ≠ [] := by
    rintro rfl
    have := h.horizon
    simp at hul
    omega
  obtain ⟨w, us', rfl⟩ := List.ne_nil_iff_exists_cons.1 hne
  refine ⟨w, ⟨_, _, hrv, hus, rfl⟩, ?_⟩
  obtain ⟨U, hU, hU1, hr1⟩ := horizonControl_ok l h.horizon h.dt hlift (r := r) (by rw [hrt]; congr 1; ext j; ring) hus hul rfl
  intro augment
  unfold Loop.pass
  rw [hr]
  simp only [Except.bind]
  rw [hU]
  simp only
  rw [hU1, hr1, getLast_drop (collected_sys h tr).2.2]
  have e1 : t0 + (tr.length : Int) * l.dt + l.dt = t0 + (tr.length + 1) * l.dt := by ring
  have e2 : (timeValues ([⟨0, t0 + tr.length * l.dt, w⟩] : List (Row Int W))).headD 0 = t0 + tr.length * l.dt := by
    simp [timeValues, unique_of_pairwise]
  rw [e1, e2, h.system _ _ _ _ (by have := h.start; positivity) (by nlinarith)]
  cases f (stateBefore s0 tr tr.length) w (t0 + tr.length * l.dt) (t0 + (tr.length + 1) * l.dt) with
  | none => rfl
  | some s' => rfl

theorem collect_augmented (h : LoopSetting l lz f sysIc Xic ref t0 s0) (tr : List (W × S)) (w : W) (s s' : S) :
    l.collect true (collected l sysIc Xic t0 tr) [⟨0, t0 + tr.length * l.dt, w⟩] [⟨0, t0 + tr.length * l.dt, s⟩, ⟨0, t0 + (tr.length + 1) * l.dt, s'⟩] =
      .ok (collected l sysIc Xic t0 (tr ++ [(w, s')])) := by
  have hd := h.dt
  have eX : (collected l sysIc Xic t0 (tr ++ [(w, s')])).X = (collected l sysIc Xic t0 tr).X ++ [⟨0, t0 + (tr.length + 1) * l.dt, l.augmented (s', some w)⟩] := by
    simp [collected, List.mapIdx_append]
  have eS : (collected l sysIc Xic t0 (tr ++ [(w, s')])).sys = (collected l sysIc Xic t0 tr).sys ++ [⟨0, t0 + (tr.length + 1) * l.dt, s'⟩] := by
    simp [collected, List.mapIdx_append]
  have eU : (collected l sysIc Xic t0 (tr ++ [(w, s')])).U = (collected l sysIc Xic t0 tr).U ++ [⟨0, t0 + tr.length * l.dt, w⟩] := by
    simp [collected, List.mapIdx_append]
  unfold Loop.collect Loop.modelRows
  rw [if_pos rfl, augment_pair _ _ _ _ _ (by nlinarith)]
  simp only [loopTsc, Except.map, List.length_cons, List.length_nil, Nat.zero_add, Nat.add_one_sub_one, List.drop_succ_cons, List.drop_zero, List.map_cons, List.map_nil, Except.bind]
  rw [← eS, ← eU, ← eX, build_ok_of_valid (collected_sys h _).1 (by rw [eS]; simp), build_ok_of_valid (collected_U h _).1 (by rw [eU]; simp),
    build_ok_of_valid ((collected_X h _).valid h.dt) (by rw [eX]; simp)]

theorem isControlAt_append {Xic : List E} {ref : List R} {tr : List (W × S)} {k : Nat} (hk : k ≤ tr.length) (q : W × S) (w : W) :
    IsControlAt l lz Xic ref (tr ++ [q]) k w ↔ IsControlAt l lz Xic ref tr k w := by
  unfold IsControlAt modelHistory
  rw [List.take_append_of_le_length hk]

theorem stateBefore_append {s0 : S} {tr : List (W × S)} {k : Nat} (hk : k ≤ tr.length) (q : W × S) : stateBefore s0 (tr ++ [q]) k = stateBefore s0 tr k := by
  unfold stateBefore
  rw [List.take_append_of_le_length hk]

theorem run_ok (h : LoopSetting l lz f sysIc Xic ref t0 s0) : ∀ (n : Nat) (tr : List (W × S)), tr.length + n + 1 ≤ ref.length →
    IsClosedLoop l lz f t0 s0 (Xic.map (·.val)) (ref.map (·.val)) tr →
    ∃ tr', l.run true ref (List.range' tr.length n) (collected l sysIc Xic t0 tr) = .ok (collected l sysIc Xic t0 tr') ∧ IsClosedLoop l lz f t0 s0 (Xic.map (·.val)) (ref.map (·.val)) tr' ∧
      (tr'.length = tr.length + n ∨ tr'.length < tr.length + n ∧ Terminates l lz f t0 s0 (Xic.map (·.val)) (ref.map (·.val)) tr') := by
  intro n
  induction n with
  | zero => exact fun tr _ hc => ⟨tr, rfl, hc, .inl rfl⟩
  | succ n ih =>
    intro tr hn hc
    obtain ⟨w, hw, hp⟩ := pass_ok h (tr := tr) (by omega)
    rw [List.range'_succ, Loop.run, hp]
    cases hf : f (stateBefore s0 tr tr.length) w (t0 + tr.length * l.dt) (t0 + (tr.length + 1) * l.dt) with
    | none => exact ⟨tr, rfl, hc, .inr ⟨by omega, w, hw, hf⟩⟩
    | some s' =>
      simp only [collect_augmented h, Except.map]
      have hc' : IsClosedLoop l lz f t0 s0 (Xic.map (·.val)) (ref.map (·.val)) (tr ++ [(w, s')]) := by
        intro k p hkp
        by_cases hk : k < tr.length
        · rw [List.getElem?_append_left hk] at hkp
          rw [isControlAt_append (by omega), stateBefore_append (by omega)]
          exact hc k p hkp
        · have hlt := (List.getElem?_eq_some_iff.1 hkp).1
          simp at hlt
          have hk' : k = tr.length := by omega
          subst hk'
          simp at hkp
          subst hkp
          rw [isControlAt_append (le_refl _), stateBefore_append (le_refl _)]
          exact ⟨hw, hf⟩
      obtain ⟨tr', h1, h2, h3⟩ := ih (tr ++ [(w, s')]) (by simp; omega) hc'
      simp only [List.length_append, List.length_singleton] at h1 h3
      exact ⟨tr', h1, h2, by rcases h3 with h3 | h3 <;> [left; right] <;> [omega; exact ⟨by omega, h3.2⟩]⟩

/-- **C154 (part).** With `augment_control` the loop succeeds.  The returned control inputs and states are a closed loop: before every step the controller gets the last samples that the model needs and
the reference over the next `horizon` samples (its last sample is held), the first control input of its optimal sequence is applied for one time step, and the state that the system then has is the next one.
The loop ends one sample before the end of the reference, or earlier if the system terminates. -/
theorem C154_closed_loop_partial (h : LoopSetting l lz f sysIc Xic ref t0 s0) :
    ∃ tr : List (W × S), l.control true sysIc ref Xic =
        .ok (sysIc ++ tr.mapIdx (fun j p => ⟨0, t0 + (j + 1) * l.dt, p.2⟩), tr.mapIdx (fun j p => ⟨0, t0 + j * l.dt, p.1⟩)) ∧
      IsClosedLoop l lz f t0 s0 (Xic.map (·.val)) (ref.map (·.val)) tr ∧
      (tr.length = ref.length - 1 ∨ tr.length < ref.length - 1 ∧ Terminates l lz f t0 s0 (Xic.map (·.val)) (ref.map (·.val)) tr) := by
  have hN : 2 ≤ ref.length := by simpa using h.refTimes.1
  obtain ⟨tr, h1, h2, h3⟩ := run_ok h (ref.length - 1) [] (by simp; omega) (by intro k p hp; simp at hp)
  refine ⟨tr, ?_, h2, by simpa using h3⟩
  unfold Loop.control
  have e : (⟨sysIc, Xic, []⟩ : LoopState S E W) = collected l sysIc Xic t0 [] := by simp [collected]
  rw [e, List.range_eq_range']
  simp only [List.length_nil] at h1
  rw [h1]
  rfl

/-- **C154 is false for the end of the reference.** No returned state is at the time of the last sample of the reference. -/
theorem C154_end_violated (h : LoopSetting l lz f sysIc Xic ref t0 s0) : ∃ (s : List (Row Int S)) (U : List (Row Int W)), l.control true sysIc ref Xic = .ok (s, U) ∧
    ∀ last, ref.getLast? = some last → ∀ r ∈ s, r.time < last.time := by
  obtain ⟨tr, h1, -, h3⟩ := C154_closed_loop_partial h
  refine ⟨_, _, h1, ?_⟩
  intro last hl r hr
  have hN : 2 ≤ ref.length := by simpa using h.refTimes.1
  have hd := h.dt
  have hlt : last.time = t0 + l.dt + ((ref.length - 1 : Nat) : Int) * l.dt := by
    have := regular_times h.refTimes.2 h.refStart (ref.length - 1) (by simp; omega)
    rw [List.getElem?_map, ← List.getLast?_eq_getElem?, hl] at this
    simpa using this
  have hle : tr.length ≤ ref.length - 1 := by rcases h3 with h3 | h3 <;> omega
  have := ((collected_sys h tr).2.1 r hr).2
  have h4 : (tr.length : Int) * l.dt ≤ ((ref.length - 1 : Nat) : Int) * l.dt := by
    apply mul_le_mul_of_nonneg_right (by exact_mod_cast hle) (le_of_lt hd)
  omega

/-- **C154 is false without `augment_control`**, which is the default: the first step of the system raises, because both samples of the step are attached and the first one is there already. -/
theorem C154_plain_violated (h : LoopSetting l lz f sysIc Xic ref t0 s0) (hf : ∀ w, ∃ s', f s0 w t0 (t0 + l.dt) = some s') : ∃ e, l.control false sysIc ref Xic = .error e := by
  have hN : 2 ≤ ref.length := by simpa using h.refTimes.1
  obtain ⟨w, -, hp⟩ := pass_ok h (tr := []) (by simp; omega)
  obtain ⟨s', hs'⟩ := hf w
  have e : (⟨sysIc, Xic, []⟩ : LoopState S E W) = collected l sysIc Xic t0 [] := by simp [collected]
  have hp := hp false
  simp only [List.length_nil, Nat.cast_zero, zero_mul, add_zero, zero_add, one_mul] at hp
  have hs0 : stateBefore s0 ([] : List (W × S)) 0 = s0 := rfl
  rw [hs0, hs'] at hp
  simp only at hp
  have hcol : ∃ e, l.collect false (collected l sysIc Xic t0 []) [⟨0, t0, w⟩] [⟨0, t0, s0⟩, ⟨0, t0 + l.dt, s'⟩] = .error e := by
    unfold Loop.collect Loop.modelRows
    simp only [Bool.false_eq_true, if_false, Except.bind, List.map_cons, List.map_nil]
    cases loopTsc (build ((collected l sysIc Xic t0 []).sys ++ ([⟨0, t0, s0⟩, ⟨0, t0 + l.dt, s'⟩] : List (Row Int S)).drop (([⟨0, t0, s0⟩, ⟨0, t0 + l.dt, s'⟩] : List (Row Int S)).length - 1))) with
    | error e => exact ⟨e, rfl⟩
    | ok a =>
      simp only
      cases loopTsc (build ((collected l sysIc Xic t0 []).U ++ [⟨0, t0, w⟩])) with
      | error e => exact ⟨e, rfl⟩
      | ok b =>
        simp only
        cases hb : build ((collected l sysIc Xic t0 []).X ++ [⟨0, t0, l.plain s0⟩, ⟨0, t0 + l.dt, l.plain s'⟩]) with
        | error e => exact ⟨_, rfl⟩
        | ok c =>
          exfalso
          have hv := (build_ok_iff.1 hb).2.2
          have hids : ∀ r ∈ (collected l sysIc Xic t0 []).X ++ [⟨0, t0, l.plain s0⟩, ⟨0, t0 + l.dt, l.plain s'⟩], r.id = 0 := by
            intro r hr
            rcases List.mem_append.1 hr with h' | h'
            · exact (collected_X h []).ids r h'
            · simp at h'
              rcases h' with rfl | rfl <;> rfl
          rw [valid_single hids, List.pairwise_append] at hv
          have hl : 1 ≤ Xic.length := le_trans h.nIc h.modelLength
          have hx := (collected_X h []) (Xic.length - 1) (Xic[Xic.length - 1]) (by simp [collected])
          have hlt := hv.2.2 Xic[Xic.length - 1] (by simp [collected]) ⟨0, t0, l.plain s0⟩ (by simp)
          rw [hx.2] at hlt
          have e2 : ((Xic.length - 1 : Nat) : Int) = Xic.length - 1 := by omega
          simp [collected, e2] at hlt
  obtain ⟨err, he⟩ := hcol
  refine ⟨err, ?_⟩
  obtain ⟨m, hm⟩ : ∃ m, ref.length - 1 = m + 1 := ⟨ref.length - 2, by omega⟩
  unfold Loop.control
  rw [e, hm, List.range_succ_eq_map, Loop.run, hp, he]
  rfl

end loop

/-! ## The simulated systems as system of the loop -/

/-- `ControllableODE.predict` as system; the failure of the solver is a `RuntimeError`. -/
def simulatedSystem (solve : List W → S → List Int → Option (List S)) (dt0 : Int) (zero : W) (X : List (Row Int S)) (U : List (Row Int W)) (tv : List Int) : Except SysErr (List (Row Int S)) :=
  match Utils.simulate solve dt0 zero (.inr X) (.tsc U) (some tv) with
  | .ok p => .ok p.1
  | .error .solver => .error .terminated
  | .error _ => .error .other

theorem simulate_step (solve : List W → S → List Int → Option (List S)) (dt0 : Int) (zero : W) (s : S) (w : W) {t t' : Int} (h0 : 0 ≤ t) (ht : t < t') :
    Utils.simulate solve dt0 zero (.inr [⟨0, t, s⟩]) (.tsc [⟨0, t, w⟩]) (some [t, t']) =
      (Utils.solveFrame (solve [w]) [t, t'] s).bind fun fr => (Utils.ofTsc (fromFrameList [Sum.inr fr] none)).bind fun d => .ok (d, [⟨0, t, w⟩]) := by
  have hv : Valid ([⟨0, t, s⟩] : List (Row Int S)) := (valid_single (i := 0) (by simp)).2 (by simp)
  have hu : ∀ {V : Type} (v : V), timeValues ([⟨0, t, v⟩] : List (Row Int V)) = [t] := fun v => unique_of_pairwise (by simp)
  have hn : ∀ {V : Type} (v : V), nTimeseries ([⟨0, t, v⟩] : List (Row Int V)) = 1 := fun v => by
    rw [nTimeseries, (single_series (i := 0) (by simp) (by simp)).1]; rfl
  have hd : finalStates ([⟨0, t, s⟩] : List (Row Int S)) 1 = .ok [⟨0, t, s⟩] := by
    obtain ⟨d, hd, hdv, hdi, hds⟩ := (C06_final (by simp) hv 1).1 ⟨le_refl _, fun i hi => by
      have := List.length_pos_iff.2 (hasId_iff_series.1 hi); omega⟩
    have h1 : series ([⟨0, t, s⟩] : List (Row Int S)) 0 = [⟨0, t, s⟩] := (single_series (i := 0) (by simp) (by simp)).2
    have hid : ∀ r ∈ d, r.id = 0 := fun r hr => by
      obtain ⟨q, hq, he⟩ := (hdi r.id).1 ⟨r, hr, rfl⟩
      rw [← he, List.mem_singleton.1 hq]
    have h2 := hds 0
    rw [h1] at h2
    have hne : d ≠ [] := by
      rintro rfl
      simp [series] at h2
    rw [(single_series hne hid).2] at h2
    rw [hd, h2]
    rfl
  have hnt : nTimesteps ([⟨0, t, w⟩] : List (Row Int W)) = .one 1 := by
    obtain ⟨e1, e2⟩ := single_series (c := ([⟨0, t, w⟩] : List (Row Int W))) (i := 0) (by simp) (by simp)
    rw [nTimesteps_one (by simp), e1]
    intro i hi
    rw [List.mem_singleton.1 hi, e2]
    rfl
  unfold Utils.simulate
  have h1 : Utils.simDelta dt0 (.tsc [⟨0, t, w⟩]) (some [t, t']) = .ok (t' - t) := rfl
  have h2 : Utils.simReference (.inr [⟨0, t, s⟩]) (.inr [⟨0, t, w⟩] : List W ⊕ List (Row Int W)) = .ok t := by
    unfold Utils.simReference
    simp only [hd, hu]
  have h3 : Utils.simTimes true t (t' - t) (.inr [⟨0, t, w⟩] : List W ⊕ List (Row Int W)) (some [t, t']) = .ok [t, t'] := by
    have hok : Utils.timesOk [t, t'] = true := by
      simp [Utils.timesOk, h0, ht, le_of_lt (lt_of_le_of_lt h0 ht)]
    have hag : Utils.timesAgree t (t' - t) (.inr [⟨0, t, w⟩] : List W ⊕ List (Row Int W)) [t, t'] = true := by
      simp [Utils.timesAgree, hu]
    simp [Utils.simTimes, hok, hag, le_of_lt ht]
  have h4 : Utils.simIndex (.inr [⟨0, t, w⟩] : List W ⊕ List (Row Int W)) [t, t'] = .ok [⟨0, t, w⟩] := by
    simp [Utils.simIndex, isSameTimeValues, hn, hnt, PerId.values]
  simp only [h1, Except.bind, Utils.simControl, h2, Sum.isRight_inr, h3, h4, Utils.simStates, List.map_cons, List.map_nil, List.zipIdx_cons, List.zipIdx_nil, List.mapM_cons, List.mapM_nil]
  have h5 : Utils.simRows ([⟨0, t, w⟩] : List (Row Int W)) [t, t'] 0 = .ok [w] := rfl
  rw [h5]
  simp only [bind, Except.bind, pure, Except.pure]
  cases Utils.solveFrame (solve [w]) [t, t'] s with
  | error e => rfl
  | ok fr => rfl

/-- **C154 (systems).** The simulated systems are systems of the loop, if the solver starts at the given state. -/
theorem C154_simulated (l : Loop S E Z R W) (solve : List W → S → List Int → Option (List S)) (dt0 : Int) (zero : W) (f : S → W → Int → Int → Option S)
    (hl : l.eval = simulatedSystem solve dt0 zero) (hs : ∀ s w t t', solve [w] s [t, t'] = (f s w t t').map (fun s' => [s, s'])) : IsSystem l f := by
  intro s w t t' h0 ht
  rw [hl, simulatedSystem, simulate_step _ _ _ _ _ h0 ht]
  cases hf : f s w t t' with
  | none => simp [Utils.solveFrame, hs, hf, Except.bind]
  | some s' =>
    simp only [Utils.solveFrame, hs, hf, Option.map_some, List.length_cons, List.length_nil, Nat.zero_add, Nat.reduceAdd, if_true, Except.bind, List.zip_cons_cons, List.zip_nil_right]
    have hp : Valid ([⟨0, t, s⟩, ⟨0, t', s'⟩] : List (Row Int S)) := (valid_single (i := 0) (by simp)).2 (by simp [ht])
    have hb := build_ok_of_valid hp (by simp)
    have hfr : fromFrameList [Sum.inr [(t, s), (t', s')]] none = .ok ([⟨0, t, s⟩, ⟨0, t', s'⟩] : List (Row Int S)) := by
      unfold fromFrameList
      have hu : (unique [0]).length = 1 := rfl
      simp [hu, hb, bind, Except.bind, pure, Except.pure]
    rw [hfr]
    rfl

/-- A scalar system: the control input is added to the state. -/
def exampleLoop : Loop Int Int Int Int Int where
  horizon := 2
  nIc := 1
  dt := 1
  lift := id
  solve := fun z r => some (match r with
    | [a, b] => [a - z, b - a]
    | _ => [0, 0])
  eval := simulatedSystem (fun w s tv => some ((List.range tv.length).map fun k => s + k * w.headD 0)) 1 0
  augmented := fun p => p.1
  plain := id

/-- The setting is met by a concrete loop. -/
theorem exampleLoop_setting : LoopSetting exampleLoop (fun X => X.headD 0) (fun s w _ _ => some (s + w)) [⟨0, 0, 5⟩] [⟨0, 0, 5⟩] [⟨3, 1, 7⟩, ⟨3, 2, 4⟩, ⟨3, 3, 9⟩] 0 5 where
  horizon := le_refl _
  dt := by decide
  nIc := le_refl _
  lift := by
    intro X t hl he
    obtain ⟨r, rfl⟩ := List.length_eq_one_iff.1 hl
    obtain ⟨h1, h2⟩ := he 0 r rfl
    simp at h2
    subst h2
    obtain ⟨i, t, v⟩ := r
    simp only at h1
    subst h1
    rfl
  solve := by
    intro z r hr
    obtain ⟨a, b, rfl⟩ := List.length_eq_two.1 hr
    exact ⟨_, rfl, rfl⟩
  system := C154_simulated exampleLoop _ 1 0 _ rfl (fun s w t t' => by simp [List.range_succ])
  start := le_refl _
  sysValid := (valid_iff _).2 (by unfold Before; decide)
  sysIds := by decide
  sysLast := rfl
  model := by
    intro j r hr
    have : j = 0 := by have := (List.getElem?_eq_some_iff.1 hr).1; simpa using this
    subst this
    simp at hr
    subst hr
    exact ⟨rfl, rfl⟩
  modelLength := le_refl _
  refIds := ⟨3, by decide⟩
  refTimes := ⟨by decide, by decide⟩
  refStart := rfl

example : exampleLoop.control true [⟨0, 0, 5⟩] [⟨3, 1, 7⟩, ⟨3, 2, 4⟩, ⟨3, 3, 9⟩] [⟨0, 0, 5⟩] = .ok ([⟨0, 0, 5⟩, ⟨0, 1, 7⟩, ⟨0, 2, 4⟩], [⟨0, 0, 2⟩, ⟨0, 1, -3⟩]) := by decide +kernel

end Verif.Mpc
