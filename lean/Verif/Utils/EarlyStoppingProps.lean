import Verif.Utils.EarlyStopping
import Mathlib.Tactic.Linarith
import Mathlib.Tactic.NormNum
import Mathlib.Order.Bounds.Basic
import Mathlib.Data.List.Induction
import Mathlib.Data.List.TakeWhile
/-!
# C59, C113: early stopping
-/

namespace Verif.Utils

/-! ## Specification -/

/-- `p` losses in a row that are all larger than some loss before them. -/
def HasPlateau (p : Nat) (l : List ℝ) : Prop := ∃ a b c, l = a ++ b ++ c ∧ b.length = p ∧ ∀ x ∈ b, ∃ y ∈ a, y < x

/-! ## Helper lemmas -/

theorem run_params (s : EarlyStopping) (l : List (Option ℝ)) : (s.run l).patience = s.patience ∧ (s.run l).delta = s.delta := by
  induction l generalizing s with
  | nil => exact ⟨rfl, rfl⟩
  | cons x l ih =>
    have h : (s.update x).patience = s.patience ∧ (s.update x).delta = s.delta := by
      unfold EarlyStopping.update
      split
      · exact ⟨rfl, rfl⟩
      · split <;> exact ⟨rfl, rfl⟩
    have := ih (s.update x)
    rw [h.1, h.2] at this
    exact this

open Classical in
/-- The state after a non-empty list of numbers, for `delta = 0`. -/
theorem run_state (p : Nat) (l : List ℝ) (hl : l ≠ []) :
    ∃ m, IsLeast {x | x ∈ l} m ∧ ((EarlyStopping.new p 0).run (l.map some)).best = some (some m) ∧
      ((EarlyStopping.new p 0).run (l.map some)).counter = (l.reverse.takeWhile (fun x => m < x)).length ∧
      (((EarlyStopping.new p 0).run (l.map some)).stop = true ↔ HasPlateau (max 1 p) l) := by
  induction l using List.reverseRecOn with
  | nil => exact absurd rfl hl
  | append_singleton l x ih =>
    by_cases hl' : l = []
    · subst hl'
      refine ⟨x, ⟨by simp, fun y hy => by simp at hy; exact hy.ge⟩, rfl, ?_, ?_⟩
      · change 0 = _
        simp
      · change (false = true) ↔ _
        simp only [Bool.false_eq_true, false_iff]
        rintro ⟨a, b, c, h1, h2, h3⟩
        have hb : b ≠ [] := by
          rintro rfl
          simp at h2
          omega
        obtain ⟨z, b', rfl⟩ := List.exists_cons_of_ne_nil hb
        obtain ⟨y, hy, -⟩ := h3 z (by simp)
        obtain ⟨w, a', rfl⟩ := List.exists_cons_of_ne_nil (List.ne_nil_of_mem hy)
        have := congrArg List.length h1
        simp at this
    · obtain ⟨m, hm, hbest, hcount, hstop⟩ := ih hl'
      have hrun : (EarlyStopping.new p 0).run ((l ++ [x]).map some) = ((EarlyStopping.new p 0).run (l.map some)).update (some x) := by
        simp [EarlyStopping.run, List.foldl_append]
      obtain ⟨hp, hd⟩ := run_params (EarlyStopping.new p 0) (l.map some)
      rw [hrun]
      generalize (EarlyStopping.new p 0).run (l.map some) = s at hbest hcount hstop hp hd
      have hsplit : HasPlateau (max 1 p) (l ++ [x]) ↔ HasPlateau (max 1 p) l ∨ (m < x ∧ p ≤ (l.reverse.takeWhile (fun x => m < x)).length + 1) := by
        constructor
        · rintro ⟨a, b, c, h1, h2, h3⟩
          rcases List.eq_nil_or_concat c with rfl | ⟨c', z, rfl⟩
          · right
            have hb : b ≠ [] := by
              rintro rfl
              simp at h2
              omega
            obtain ⟨b', z, rfl⟩ := (List.eq_nil_or_concat b).resolve_left hb
            rw [List.append_nil, List.concat_eq_append, ← List.append_assoc] at h1
            obtain ⟨h4, h5⟩ := List.append_inj' h1 rfl
            obtain rfl : x = z := by simpa using h5
            rw [List.concat_eq_append] at h2 h3
            have hma : ∀ y ∈ a, m ≤ y := fun y hy => hm.2 (by rw [h4]; simp [hy])
            have hmem : m ∈ a := by
              have := hm.1
              rw [h4] at this
              rcases List.mem_append.mp this with h | h
              · exact h
              · obtain ⟨y, hy, hlt⟩ := h3 m (by simp [h])
                exact absurd (hma y hy) (not_le.mpr hlt)
            have hgt : ∀ z ∈ b', m < z := fun z hz => by
              obtain ⟨y, hy, hlt⟩ := h3 z (by simp [hz])
              exact (hma y hy).trans_lt hlt
            refine ⟨?_, ?_⟩
            · obtain ⟨y, hy, hlt⟩ := h3 x (by simp)
              exact (hma y hy).trans_lt hlt
            · rw [h4, List.reverse_append, List.takeWhile_append_of_pos (fun z hz => by simpa using hgt z (by simpa using hz)), List.length_append, List.length_reverse]
              simp only [List.length_append, List.length_singleton] at h2
              omega
          · left
            rw [List.concat_eq_append, ← List.append_assoc] at h1
            obtain ⟨h4, -⟩ := List.append_inj' h1 rfl
            exact ⟨a, b, c', h4, h2, h3⟩
        · rintro (⟨a, b, c, h1, h2, h3⟩ | ⟨hx, hc⟩)
          · exact ⟨a, b, c ++ [x], by rw [h1]; simp, h2, h3⟩
          · set w := l.reverse.takeWhile (fun x => m < x) with hw
            have hpre : l = (l.reverse.drop w.length).reverse ++ w.reverse := by
              rw [← List.reverse_append]
              have : w ++ l.reverse.drop w.length = l.reverse := by
                have hpf : w <+: l.reverse := List.takeWhile_prefix _
                obtain ⟨t, ht⟩ := hpf
                rw [← ht, List.drop_left]
              rw [this, List.reverse_reverse]
            have hwgt : ∀ z ∈ w, m < z := fun z hz => by simpa using List.mem_takeWhile_imp hz
            have hmem : m ∈ (l.reverse.drop w.length).reverse := by
              have := hm.1
              change m ∈ l at this
              rw [hpre] at this
              rcases List.mem_append.mp this with h | h
              · exact h
              · exact absurd (hwgt m (by simpa using h)) (lt_irrefl _)
            set a := (l.reverse.drop w.length).reverse
            -- the last `max 1 p` elements
            have hlen : (w.reverse ++ [x]).length = w.length + 1 := by simp
            refine ⟨a ++ (w.reverse ++ [x]).take (w.length + 1 - max 1 p), (w.reverse ++ [x]).drop (w.length + 1 - max 1 p), [], ?_, ?_, ?_⟩
            · rw [List.append_nil, List.append_assoc, List.take_append_drop, ← List.append_assoc, ← hpre]
            · rw [List.length_drop, hlen]
              omega
            · intro z hz
              refine ⟨m, List.mem_append_left _ hmem, ?_⟩
              rcases List.mem_append.mp (List.mem_of_mem_drop hz) with h | h
              · exact hwgt z (by simpa using h)
              · rw [List.mem_singleton.mp h]
                exact hx
      unfold EarlyStopping.update
      rw [hbest]
      dsimp only
      by_cases hx : m < x
      · have he : exceeds (some x) (some m) s.delta := by
          rw [hd]
          change m + 0 < x
          linarith
        rw [if_pos he]
        refine ⟨m, ⟨by simp [hm.1.out], fun y hy => ?_⟩, rfl, ?_, ?_⟩
        · simp only [Set.mem_ofPred_eq, List.mem_append, List.mem_singleton] at hy
          rcases hy with hy | rfl
          · exact hm.2 hy
          · exact hx.le
        · dsimp only
          rw [hcount]
          simp [hx]
        · dsimp only
          rw [hsplit, hp, hcount, ← hstop]
          change ((if p ≤ _ then true else s.stop) = true ↔ _)
          by_cases hc : p ≤ (l.reverse.takeWhile (fun x => decide (m < x))).length + 1
          · simp [hc, hx]
          · simp [hc]
      · have he : ¬exceeds (some x) (some m) s.delta := by
          rw [hd]
          change ¬m + 0 < x
          rw [add_zero]
          exact hx
        rw [if_neg he]
        refine ⟨x, ⟨by simp, fun y hy => ?_⟩, rfl, ?_, ?_⟩
        · simp only [Set.mem_ofPred_eq, List.mem_append, List.mem_singleton] at hy
          rcases hy with hy | rfl
          · exact (not_lt.mp hx).trans (hm.2 hy)
          · exact le_refl _
        · simp
        · dsimp only
          rw [hsplit, ← hstop]
          simp [hx]

/-! ## C59 -/

/-- C59: for `delta = 0` training is stopped after a sequence of losses exactly if it contains `patience` (at least one) losses in a row that are all larger than the best loss before. -/
theorem C59_stop (p : Nat) (l : List ℝ) : ((EarlyStopping.new p 0).run (l.map some)).stop = true ↔ HasPlateau (max 1 p) l := by
  by_cases hl : l = []
  · subst hl
    change (false = true) ↔ _
    simp only [Bool.false_eq_true, false_iff]
    rintro ⟨a, b, c, h1, h2, -⟩
    have := congrArg List.length h1
    simp only [List.length_nil, List.length_append] at this
    omega
  · obtain ⟨-, -, -, -, h⟩ := run_state p l hl
    exact h

/-- C59: the stored score is the smallest loss seen. -/
theorem C59_best (p : Nat) (l : List ℝ) (hl : l ≠ []) : ∃ m, ((EarlyStopping.new p 0).run (l.map some)).best = some (some m) ∧ m ∈ l ∧ ∀ x ∈ l, m ≤ x := by
  obtain ⟨m, h1, h2, -, -⟩ := run_state p l hl
  exact ⟨m, h2, h1.1, fun x hx => h1.2 hx⟩

/-- C59: once stopped it stays stopped, for every `delta` and whatever losses (including `nan`) follow. -/
theorem C59_stays (s : EarlyStopping) (h : s.stop = true) (l : List (Option ℝ)) : (s.run l).stop = true := by
  induction l generalizing s with
  | nil => exact h
  | cons x l ih =>
    refine ih (s.update x) ?_
    unfold EarlyStopping.update
    split
    · exact h
    · split
      · dsimp only
        split
        · rfl
        · exact h
      · exact h

/-- A run that is stopped, and a longer one that is not. -/
example : ((EarlyStopping.new 2 0).run ([3, 1, 2, 2, 0].map some)).stop = true ∧ ((EarlyStopping.new 2 0).run ([3, 1, 2, 1, 2, 0].map some)).stop ≠ true := by
  constructor
  · rw [C59_stop]
    exact ⟨[3, 1], [2, 2], [0], rfl, rfl, fun x hx => ⟨1, by simp, by simp at hx; rw [hx]; norm_num⟩⟩
  · norm_num [EarlyStopping.run, EarlyStopping.new, EarlyStopping.update, exceeds]

/-! ## C113 -/

/-- C113 for `delta = 0`: if all losses from some epoch on exceed an earlier one, training is stopped after `patience` of them. -/
theorem C113_diverging_partial (p : Nat) (a b : List ℝ) (y : ℝ) (hy : y ∈ a) (hb : ∀ x ∈ b, y < x) (hlen : max 1 p ≤ b.length) :
    ((EarlyStopping.new p 0).run ((a ++ b).map some)).stop = true := by
  rw [C59_stop]
  refine ⟨a, b.take (max 1 p), b.drop (max 1 p), ?_, ?_, fun x hx => ⟨y, hy, hb x (List.mem_of_mem_take hx)⟩⟩
  · rw [List.append_assoc, List.take_append_drop]
  · rw [List.length_take]
    omega

/-- C113 is violated for a positive `delta`: losses that grow by `delta` in every epoch, without bound, never stop the training, because the best score follows them. -/
theorem C113_violated_drift (p : Nat) (delta : ℝ) (n : Nat) :
    ((EarlyStopping.new p delta).run ((List.range (n + 1)).map (fun k : Nat => some ((k : ℝ) * delta)))).stop = false ∧
      ((EarlyStopping.new p delta).run ((List.range (n + 1)).map (fun k : Nat => some ((k : ℝ) * delta)))).best = some (some ((n : ℝ) * delta)) := by
  induction n with
  | zero => exact ⟨rfl, rfl⟩
  | succ n ih =>
    have hrun : (EarlyStopping.new p delta).run ((List.range (n + 1 + 1)).map (fun k : Nat => some ((k : ℝ) * delta))) =
        ((EarlyStopping.new p delta).run ((List.range (n + 1)).map (fun k : Nat => some ((k : ℝ) * delta)))).update (some (((n + 1 : Nat) : ℝ) * delta)) := by
      rw [List.range_succ]
      simp [EarlyStopping.run, List.foldl_append]
    obtain ⟨-, hd⟩ := run_params (EarlyStopping.new p delta) ((List.range (n + 1)).map (fun k : Nat => some ((k : ℝ) * delta)))
    rw [hrun]
    generalize (EarlyStopping.new p delta).run ((List.range (n + 1)).map (fun k : Nat => some ((k : ℝ) * delta))) = s at ih hd
    unfold EarlyStopping.update
    rw [ih.2]
    dsimp only
    rw [if_neg]
    · exact ⟨ih.1, rfl⟩
    · rw [hd]
      change ¬(n : ℝ) * delta + delta < ((n + 1 : Nat) : ℝ) * delta
      push_cast
      linarith

/-- C113 is also violated when the loss becomes `nan`: training is not stopped however long this lasts. -/
theorem C113_violated_nan (p : Nat) (delta : ℝ) (hist : List (Option ℝ)) (h : ((EarlyStopping.new p delta).run hist).stop = false) (n : Nat) :
    ((EarlyStopping.new p delta).run (hist ++ List.replicate n none)).stop = false := by
  unfold EarlyStopping.run at h ⊢
  rw [List.foldl_append]
  generalize hist.foldl EarlyStopping.update (EarlyStopping.new p delta) = s at h
  induction n generalizing s with
  | zero => exact h
  | succ n ih =>
    rw [List.replicate_succ, List.foldl_cons]
    refine ih _ ?_
    unfold EarlyStopping.update
    split
    · exact h
    · rw [if_neg]
      · exact h
      · simp [exceeds]

end Verif.Utils
