import Verif.Tsc.CollLemmas
/-!
# C06, C07: initial states, final states, dropping the last samples
-/

namespace Verif.Tsc

variable {τ V : Type} [LinearOrder τ]

/-- **C06 (initial).** `initial_states(n)` succeeds iff `n ≥ 1` and every series has at least `n` samples, and then every series of
the result consists of exactly the first `n` rows of that series; the result is a valid collection with the same IDs. -/
theorem C06_initial {c : List (Row τ V)} (hc : c ≠ []) (hv : Valid c) (n : Int) :
    ((1 ≤ n ∧ ∀ i, HasId c i → n ≤ (series c i).length) →
      ∃ d, initialStates c n = .ok d ∧ Valid d ∧ (∀ i, HasId d i ↔ HasId c i) ∧ ∀ i, series d i = (series c i).take n.toNat) ∧
    (¬ (1 ≤ n ∧ ∀ i, HasId c i → n ≤ (series c i).length) → ∃ e, initialStates c n = .error e) := by
  constructor
  · rintro ⟨h1, h2⟩
    have hmin := (checkMinTimesteps_iff hc n).2 h2
    have hser : ∀ i, series (groupHead n.toNat [] c) i = (series c i).take n.toNat := by
      intro i; rw [series_groupHead]; simp
    have hval : Valid (groupHead n.toNat [] c) := hv.sublist (groupHead_sublist _ _ _)
    have hids : ∀ i, HasId (groupHead n.toNat [] c) i ↔ HasId c i := by
      intro i
      rw [hasId_iff_series, hasId_iff_series, hser, Ne, List.take_eq_nil_iff]
      constructor
      · intro h h'; exact h (Or.inr h')
      · rintro h (h' | h')
        · omega
        · exact h h'
    have hne : groupHead n.toNat [] c ≠ [] := by
      obtain ⟨r, l, rfl⟩ := List.ne_nil_iff_exists_cons.1 hc
      have : HasId (groupHead n.toNat [] (r :: l)) r.id := (hids _).2 ⟨r, by simp, rfl⟩
      obtain ⟨x, hx, _⟩ := this
      intro e; rw [e] at hx; simp at hx
    refine ⟨_, ?_, hval, hids, hser⟩
    simp only [initialStates, hmin, not_lt.2 h1, if_false]
    simpa using build_ok_of_valid hval hne
  · intro h
    unfold initialStates
    by_cases h1 : n < 1
    · simp [h1]
    · have : checkMinTimesteps c n ≠ true := by
        rw [Ne, checkMinTimesteps_iff hc]; intro h'; exact h ⟨by omega, h'⟩
      simp [h1, this]

/-- **C06 (final).** As `C06_initial`, for the last `n` rows. -/
theorem C06_final {c : List (Row τ V)} (hc : c ≠ []) (hv : Valid c) (n : Int) :
    ((1 ≤ n ∧ ∀ i, HasId c i → n ≤ (series c i).length) →
      ∃ d, finalStates c n = .ok d ∧ Valid d ∧ (∀ i, HasId d i ↔ HasId c i) ∧
        ∀ i, series d i = (series c i).drop ((series c i).length - n.toNat)) ∧
    (¬ (1 ≤ n ∧ ∀ i, HasId c i → n ≤ (series c i).length) → ∃ e, finalStates c n = .error e) := by
  constructor
  · rintro ⟨h1, h2⟩
    have hmin := (checkMinTimesteps_iff hc n).2 h2
    have hser : ∀ i, series (groupTail n.toNat c) i = (series c i).drop ((series c i).length - n.toNat) :=
      fun i => series_groupTail _ _ i
    have hval : Valid (groupTail n.toNat c) := hv.sublist (groupTail_sublist _ _)
    have hids : ∀ i, HasId (groupTail n.toNat c) i ↔ HasId c i := by
      intro i
      rw [hasId_iff_series, hasId_iff_series, hser, Ne, List.drop_eq_nil_iff, ← List.length_pos_iff]
      omega
    have hne : groupTail n.toNat c ≠ [] := by
      obtain ⟨r, l, rfl⟩ := List.ne_nil_iff_exists_cons.1 hc
      have : HasId (groupTail n.toNat (r :: l)) r.id := (hids _).2 ⟨r, by simp, rfl⟩
      obtain ⟨x, hx, _⟩ := this
      intro e; rw [e] at hx; simp at hx
    refine ⟨_, ?_, hval, hids, hser⟩
    simp only [finalStates, hmin, not_lt.2 h1, if_false]
    simpa using build_ok_of_valid hval hne
  · intro h
    unfold finalStates
    by_cases h1 : n < 1
    · simp [h1]
    · have : checkMinTimesteps c n ≠ true := by
        rw [Ne, checkMinTimesteps_iff hc]; intro h'; exact h ⟨by omega, h'⟩
      simp [h1, this]

example : initialStates ([⟨3, 0, 1⟩, ⟨3, 1, 2⟩, ⟨3, 2, 3⟩, ⟨1, 5, 4⟩, ⟨1, 7, 5⟩] : List (Row Nat Nat)) 2 =
    .ok [⟨3, 0, 1⟩, ⟨3, 1, 2⟩, ⟨1, 5, 4⟩, ⟨1, 7, 5⟩] := by decide
example : finalStates ([⟨3, 0, 1⟩, ⟨3, 1, 2⟩, ⟨3, 2, 3⟩, ⟨1, 5, 4⟩, ⟨1, 7, 5⟩] : List (Row Nat Nat)) 1 =
    .ok [⟨3, 2, 3⟩, ⟨1, 7, 5⟩] := by decide

theorem row_eq_of_key {c : List (Row τ V)} (h : (c.map (·.key)).Nodup) {a b : Row τ V} (ha : a ∈ c) (hb : b ∈ c) (hk : a.key = b.key) :
    a = b := List.inj_on_of_nodup_map h ha hb hk

theorem series_dropKeys_tail {c : List (Row τ V)} (hv : Valid c) (n i : Nat) :
    series (dropKeys c ((groupTail n c).map (·.key))) i = (series c i).take ((series c i).length - n) := by
  have hnd : (c.map (·.key)).Nodup := nodup_keys_of_pairwise c ((valid_iff c).1 hv).2
  have hmem : ∀ r ∈ c, ((groupTail n c).map (·.key)).contains r.key = true ↔ r ∈ groupTail n c := by
    intro r hr
    rw [List.contains_iff_mem, List.mem_map]
    constructor
    · rintro ⟨x, hx, hk⟩
      rwa [← row_eq_of_key hnd ((groupTail_sublist n c).subset hx) hr hk]
    · intro h; exact ⟨r, h, rfl⟩
  set m := (series c i).length - n with hm
  have hcomm : series (dropKeys c ((groupTail n c).map (·.key))) i =
      (series c i).filter (fun r => !((groupTail n c).map (·.key)).contains r.key) := by
    simp only [series, dropKeys, List.filter_filter]
    apply List.filter_congr; intro r _; exact Bool.and_comm _ _
  rw [hcomm]
  conv => lhs; rw [← List.take_append_drop m (series c i)]
  have hsplit := series_groupTail n c i
  have hndS : (series c i).Nodup := by
    have : (c).Nodup := List.Nodup.of_map _ hnd
    exact this.filter _
  rw [List.filter_append]
  have h1 : ((series c i).take m).filter (fun r => !((groupTail n c).map (·.key)).contains r.key) = (series c i).take m := by
    rw [List.filter_eq_self]
    intro r hr
    have hrs := List.mem_of_mem_take hr
    have hrc := (mem_series.1 hrs).1
    rw [Bool.not_eq_true', ← Bool.not_eq_true, hmem r hrc]
    intro hg
    have hgs : r ∈ series (groupTail n c) i := mem_series.2 ⟨hg, (mem_series.1 hrs).2⟩
    rw [hsplit] at hgs
    have := List.take_append_drop m (series c i)
    rw [← this, List.nodup_append] at hndS
    exact hndS.2.2 r hr r hgs rfl
  have h2 : ((series c i).drop m).filter (fun r => !((groupTail n c).map (·.key)).contains r.key) = [] := by
    rw [List.filter_eq_nil_iff]
    intro r hr
    have hrs := List.mem_of_mem_drop hr
    rw [Bool.not_eq_true', Bool.not_eq_false, hmem r (mem_series.1 hrs).1]
    rw [← hsplit] at hr
    exact (mem_series.1 hr).1
  rw [h1, h2, List.append_nil]

/-- **C07.** If every series has at least `n` samples and one has more, `drop_last_n_samples(n)` succeeds with a valid collection in
which every series is the original one without its last `n` rows; together with the last `n` rows (`final_states`)
it gives back the series. -/
theorem C07_drop_last {c : List (Row τ V)} (hc : c ≠ []) (hv : Valid c) (n : Nat) (h : ∀ i, HasId c i → n ≤ (series c i).length)
    (hex : ∃ i, n < (series c i).length) :
    ∃ d, dropLastN c n = .ok d ∧ Valid d ∧ (∀ i, series d i = (series c i).take ((series c i).length - n)) ∧
      (∀ f, finalStates c n = .ok f → ∀ i, series d i ++ series f i = series c i) := by
  have hmin := (checkMinTimesteps_iff hc n).2 (fun i hi => by exact_mod_cast h i hi)
  have hval : Valid (dropKeys c ((groupTail n c).map (·.key))) := hv.sublist List.filter_sublist
  have hne : dropKeys c ((groupTail n c).map (·.key)) ≠ [] := by
    obtain ⟨i, hi⟩ := hex
    intro e
    have := series_dropKeys_tail hv n i
    rw [e] at this
    have := congrArg List.length this
    simp [series] at this hi
    omega
  refine ⟨_, ?_, hval, series_dropKeys_tail hv n, ?_⟩
  · simp only [dropLastN, hmin]
    simpa using build_ok_of_valid hval hne
  · intro f hf i
    unfold finalStates at hf
    split at hf
    · simp at hf
    · split at hf
      · simp at hf
      · obtain ⟨rfl, -, -⟩ := build_ok_iff.1 hf
        rw [series_dropKeys_tail hv, series_groupTail]
        simp

/-- **C07 (rejection).** It raises if some series has fewer than `n` samples, and also if every sample would be dropped. -/
theorem C07_rejects {c : List (Row τ V)} (hc : c ≠ []) (hv : Valid c) (n : Nat)
    (h : (∃ i, HasId c i ∧ (series c i).length < n) ∨ (∀ i, (series c i).length ≤ n)) :
    ∃ e, dropLastN c n = .error e := by
  unfold dropLastN
  by_cases hmin : checkMinTimesteps c n = true
  · have h' := (checkMinTimesteps_iff hc n).1 hmin
    rcases h with ⟨i, hi, hlt⟩ | h
    · have := h' i hi; omega
    · have hnil : dropKeys c ((groupTail n c).map (·.key)) = [] := by
        rw [List.eq_nil_iff_forall_not_mem]
        intro r hr
        have : r ∈ series (dropKeys c ((groupTail n c).map (·.key))) r.id := mem_series.2 ⟨hr, rfl⟩
        rw [series_dropKeys_tail hv] at this
        have h0 : (series c r.id).length - n = 0 := by have := h r.id; omega
        rw [h0] at this; simp at this
      rw [hnil]
      simp [hmin, build, construct, anyDuplicated]
  · simp [hmin]

example : dropLastN ([⟨3, 0, 1⟩, ⟨3, 1, 2⟩, ⟨3, 2, 3⟩, ⟨1, 5, 4⟩, ⟨1, 7, 5⟩] : List (Row Nat Nat)) 2 =
    .ok [⟨3, 0, 1⟩] := by decide

end Verif.Tsc
