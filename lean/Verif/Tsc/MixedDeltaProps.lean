import Verif.Tsc.InitCondProps
import Verif.Tsc.CheckProps
/-!
# C77 and C116 for collections with different sampling intervals
-/

namespace Verif.Tsc

open Verif.Np

variable {V : Type}

/-! ## Helper lemmas -/

theorem regular_interval {l : List Int} {d e : Int} (h : Regular l d) (h' : Regular l e) : d = e := by
  obtain ⟨h1, h2⟩ := h
  match l, h1 with
  | a :: b :: l, _ => rw [← h2 (a, b) (by simp [consecutive]), ← h'.2 (a, b) (by simp [consecutive])]

theorem deltaTime_head {c : List (Row Int V)} (hc : c ≠ []) (hv : Valid c) {k : TimeKind} {x : Option Int} (h : deltaTime k c = .one x) : ∃ i, HasId c i ∧ x = rowDelta (npDiff (timesOf c i)) := by
  obtain ⟨order, hperm, -, hdts⟩ := dts_eq hc hv
  have hone : order ≠ [] := by
    intro e; rw [e] at hperm
    exact ids_ne_nil hc hperm.nil_eq.symm
  obtain ⟨i, t, rfl⟩ := List.ne_nil_iff_exists_cons.1 hone
  refine ⟨i, by rw [← mem_ids, ← hperm.mem_iff]; simp, ?_⟩
  unfold deltaTime at h
  rw [hdts] at h
  split at h
  · simpa using h.symm
  · simp at h

/-- Series with different sampling intervals: the overview holds the interval of each series. -/
theorem hasDeltas_mixed {c : List (Row Int V)} (hc : c ≠ []) (hv : Valid c) (hm : ModerateSteps c) (hs : IdsAscending c ∨ ¬ EqualLengths c) {δ : Nat → Int}
    (h : ∀ i, HasId c i → Regular (timesOf c i) (δ i)) : HasDeltas .int c δ := by
  intro i hi
  refine ⟨?_, h i hi⟩
  unfold deltaOf
  cases hd : deltaTime .int c with
  | one x =>
    obtain ⟨j, hj, hx⟩ := deltaTime_head hc hv hd
    rw [(rowDelta_iff _ _).2 (h j hj)] at hx
    subst hx
    have := (C11_int_partial hc hv hm (δ j)).1 hd i hi
    simp only
    rw [regular_interval this (h i hi)]
  | per l =>
    obtain ⟨h1, h2⟩ := C11_per_id_partial hc hv .int hd hs
    have hil : ∃ p ∈ l, (fun p : Nat × Option Int => p.1 == i) p = true := by
      have : i ∈ l.map (·.1) := by rw [h1, mem_ids]; exact hi
      obtain ⟨p, hp, rfl⟩ := List.mem_map.1 this
      exact ⟨p, hp, by simp⟩
    obtain ⟨p, hp⟩ := Option.isSome_iff_exists.1 (List.find?_isSome.2 hil)
    have hpi : p.1 = i := by simpa using List.find?_some hp
    have hpl := List.mem_of_find?_eq_some hp
    simp only
    rw [hp]
    have := (h2 i p.2 (hpi ▸ hpl) (δ i)).2 (h i hi)
    simpa using this

/-! ## Property theorems -/

/-- **C77 (different intervals).** `iter_reconstruct_ic` for series each of which has its own constant interval: the groups cover every series once, all series of a group have the time values of the
group, and the initial states are the first `n` samples. -/
theorem C77_mixed_partial {c : List (Row Int V)} (hc : c ≠ []) (hv : Valid c) (hm : ModerateSteps c) (hs : IdsAscending c ∨ ¬ EqualLengths c) {δ : Nat → Int}
    (h : ∀ i, HasId c i → Regular (timesOf c i) (δ i)) {n : Nat} (hn : 1 ≤ n) (hlen : ∀ i, HasId c i → n ≤ (series c i).length) :
    ∃ gs, iterReconstruct .int c n = .ok gs ∧
      (∀ g ∈ gs, g.1 ≠ [] ∧ Valid g.1 ∧ ∀ i, HasId g.1 i → HasId c i ∧ content g.1 i = (content c i).take n ∧ g.2 = ((content c i).map (·.1)).drop (n - 1)) ∧
      (∀ i, HasId c i → ∃ g ∈ gs, HasId g.1 i) ∧
      gs.Pairwise (fun g g' => ∀ i, HasId g.1 i → ¬ HasId g'.1 i) :=
  C77_iter hc hv (hasDeltas_mixed hc hv hm hs h) hn hlen

/-- non-vacuity: two series with the same first and last time value and different intervals. -/
example : iterReconstruct .int ([⟨3, 0, 1⟩, ⟨3, 2, 2⟩, ⟨3, 4, 3⟩, ⟨5, 0, 7⟩, ⟨5, 4, 8⟩] : List (Row Int Nat)) 1 =
    .ok [([⟨3, 0, 1⟩], [0, 2, 4]), ([⟨5, 0, 7⟩], [0, 4])] := by decide +kernel

/-- **C116 (different intervals).** Without `require_const`, two collections which both have several sampling intervals are accepted by `check_equal_delta_time` iff they have the same IDs and the
series of each ID have the same interval (or are both irregular). -/
theorem C116_equal_delta_mixed_partial {c d : List (Row Int V)} (hc : c ≠ []) (hvc : Valid c) (hsc : IdsAscending c ∨ ¬ EqualLengths c) (hd : d ≠ []) (hvd : Valid d) (hsd : IdsAscending d ∨ ¬ EqualLengths d)
    {l m : List (Nat × Option Int)} (hl : deltaTime .int c = .per l) (hm : deltaTime .int d = .per m) :
    checkEqualDelta (deltaTime .int c) (deltaTime .int d) false = .ok () ↔
      ids c = ids d ∧ ∀ i, HasId c i → ∀ δ, Regular (timesOf c i) δ ↔ Regular (timesOf d i) δ := by
  obtain ⟨l1, l2⟩ := C11_per_id_partial hc hvc .int hl hsc
  obtain ⟨m1, m2⟩ := C11_per_id_partial hd hvd .int hm hsd
  rw [hl, hm]
  have e : checkEqualDelta (.per l) (.per m) false = .ok () ↔ l = m := by
    unfold checkEqualDelta
    simp
  rw [e]
  constructor
  · rintro rfl
    refine ⟨l1.symm.trans m1, fun i hi δ => ?_⟩
    have : i ∈ l.map (·.1) := by rw [l1, mem_ids]; exact hi
    obtain ⟨p, hp, rfl⟩ := List.mem_map.1 this
    exact (l2 p.1 p.2 hp δ).symm.trans (m2 p.1 p.2 hp δ)
  · rintro ⟨h1, h2⟩
    have hlm : l.map (·.1) = m.map (·.1) := by rw [l1, m1, h1]
    have hlen : l.length = m.length := by simpa using congrArg List.length hlm
    refine List.ext_getElem hlen (fun k hk hk' => ?_)
    have hf : l[k].1 = m[k].1 := by
      have := List.getElem_of_eq hlm (by simpa using hk : k < (l.map (·.1)).length)
      simpa using this
    have hid : HasId c l[k].1 := by
      rw [← mem_ids, ← l1]
      exact List.mem_map_of_mem (List.getElem_mem hk)
    refine Prod.ext hf ?_
    have hx := l2 l[k].1 l[k].2 (List.getElem_mem hk)
    have hy := m2 m[k].1 m[k].2 (List.getElem_mem hk')
    apply Option.ext
    intro δ
    rw [hx δ, hy δ, ← hf]
    exact h2 _ hid δ

/-- non-vacuity: the same intervals under the same IDs are accepted, the same intervals under other IDs are not. -/
example : checkEqualDelta (deltaTime .int ([⟨3, 0, 1⟩, ⟨3, 2, 2⟩, ⟨5, 0, 7⟩, ⟨5, 4, 8⟩] : List (Row Int Nat)))
      (deltaTime .int ([⟨3, 1, 1⟩, ⟨3, 3, 2⟩, ⟨3, 5, 2⟩, ⟨5, 0, 7⟩, ⟨5, 4, 8⟩] : List (Row Int Nat))) false = .ok () ∧
    checkEqualDelta (deltaTime .int ([⟨3, 0, 1⟩, ⟨3, 2, 2⟩, ⟨5, 0, 7⟩, ⟨5, 4, 8⟩] : List (Row Int Nat)))
      (deltaTime .int ([⟨3, 1, 1⟩, ⟨3, 3, 2⟩, ⟨6, 0, 7⟩, ⟨6, 4, 8⟩] : List (Row Int Nat))) false = .error .requiredDelta := by
  constructor <;> decide +kernel

end Verif.Tsc
