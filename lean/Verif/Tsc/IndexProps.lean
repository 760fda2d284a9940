import Verif.Tsc.IndexLemmas
import Mathlib.Data.Rat.Lemmas
import Mathlib.Algebra.Order.Group.Unbundled.Basic
/-!
# C01: the constructor accepts exactly the valid collections
-/

namespace Verif.Tsc

/-! ### Lemmas relating raw index rows and typed rows -/

/-- typed view of raw rows -/
def typed (rows : List (Option Rat × Option Rat)) : List (Row Rat Unit) :=
  rows.map (fun p => ⟨(p.1.getD 0).num.toNat, p.2.getD 0, ()⟩)

/-- raw view of typed rows -/
def raw (c : List (Row Rat Unit)) : List (Option Rat × Option Rat) :=
  c.map (fun x => (some (x.id : Rat), some x.time))

theorem raw_typed (rows : List (Option Rat × Option Rat)) (h1 : idsInteger (rows.map (·.1)) = true)
    (h2 : anyNeg (rows.map (·.1)) = false) (h3 : ∀ p ∈ rows, p.2 ≠ none) : raw (typed rows) = rows := by
  induction rows with
  | nil => rfl
  | cons p l ih =>
    obtain ⟨a, t⟩ := p
    have h3' := h3 (a, t) (by simp)
    simp only [idsInteger, anyNeg, List.map_cons, List.all_cons, List.any_cons, Bool.and_eq_true, Bool.or_eq_false_iff] at h1 h2
    have := ih (by simpa [idsInteger] using h1.2) (by simpa [anyNeg] using h2.2) (fun p hp => h3 p (by simp [hp]))
    simp only [raw, typed, List.map_cons] at this ⊢
    rw [this]
    congr 1
    cases t with
    | none => simp at h3'
    | some t =>
    cases a with
    | none => simp at h1
    | some q =>
      have hd : q.den = 1 := by simpa using h1.1
      have hn : 0 ≤ q := by simpa using h2.1
      have hnum : 0 ≤ q.num := Rat.num_nonneg.2 hn
      simp only [Option.getD_some, Prod.mk.injEq, and_true, Option.some.injEq]
      have : ((q.num.toNat : Int) : Rat) = q := by
        rw [Int.toNat_of_nonneg hnum]
        exact Rat.coe_int_num_of_den_eq_one hd
      exact_mod_cast this

theorem raw_fst_injective (c : List (Row Rat Unit)) :
    (raw c).map (·.1) = (c.map (·.id)).map (fun n : Nat => (some (n : Rat) : Option Rat)) := by
  simp [raw]

theorem some_cast_inj {a b : Nat} : (some (a : Rat) : Option Rat) = some (b : Rat) ↔ a = b := by
  simp

theorem newIds_map {α β : Type} [DecidableEq α] [DecidableEq β] (f : α → β) (hf : ∀ a b, f a = f b → a = b) (l : List α) :
    newIds (l.map f) = (newIds l).map f := by
  fun_induction newIds l with
  | case1 => rfl
  | case2 => rfl
  | case3 b l ih => simpa [newIds] using ih
  | case4 a b l h ih =>
    have : f a ≠ f b := fun e => h (hf _ _ e)
    simp [newIds, this] at ih ⊢
    exact ih

theorem anyNotSorted_raw (k : Kind) (c : List (Row Rat Unit)) : anyNotSorted k (raw c) = construct.notSorted c := by
  match c with
  | [] => rfl
  | [a] => rfl
  | a :: b :: l =>
    have ih := anyNotSorted_raw k (b :: l)
    have hk : ∀ t : Rat, timeNum k (some t) = some t := by intro t; cases k <;> rfl
    have e1 : ((some (a.id : Rat) : Option Rat) == some (b.id : Rat)) = (a.id == b.id) := by
      rw [Bool.eq_iff_iff]; simp
    have e2 : diffNonPos (some a.time) (some b.time) = decide (b.time ≤ a.time) := by
      simp only [diffNonPos, decide_eq_decide]; exact sub_nonpos
    simp only [raw, List.map_cons] at ih ⊢
    unfold anyNotSorted construct.notSorted
    simp only [hk, e1, e2, ih]

theorem idsInteger_raw (c : List (Row Rat Unit)) : idsInteger ((raw c).map (·.1)) = true := by
  simp [raw, idsInteger]

theorem anyNeg_raw (c : List (Row Rat Unit)) : anyNeg ((raw c).map (·.1)) = false := by
  simp [raw, anyNeg]

theorem anyNeg_raw_time (c : List (Row Rat Unit)) : anyNeg ((raw c).map (·.2)) = false ↔ ∀ x ∈ c, 0 ≤ x.time := by
  simp [raw, anyNeg]

theorem nodup_raw (c : List (Row Rat Unit)) : (raw c).Nodup ↔ (c.map (·.key)).Nodup := by
  have : raw c = (c.map (·.key)).map (fun k => ((some (k.id : Rat) : Option Rat), (some k.time : Option Rat))) := by
    simp [raw, Row.key]
  rw [this, List.nodup_map_iff]
  intro a b h
  simp only [Prod.mk.injEq, Option.some.injEq, Nat.cast_inj] at h
  cases a; cases b; simp_all

theorem raw_injective {c c' : List (Row Rat Unit)} (h : raw c = raw c') : c = c' := by
  have hinj : Function.Injective (fun x : Row Rat Unit => ((some (x.id : Rat) : Option Rat), (some x.time : Option Rat))) := by
    intro a b h
    simp only [Prod.mk.injEq, Option.some.injEq, Nat.cast_inj] at h
    cases a; cases b; simp_all
  exact hinj.list_map h

theorem kindAllowed_iff (fd : Bool) (k : Kind) : kindAllowed fd k = true ↔ AllowedKind fd k := by
  cases fd <;> cases k <;> simp [kindAllowed, AllowedKind]

theorem ite_error_ok {ε α : Type} {p : Prop} [Decidable p] (e : ε) (x : Except ε α) (y : α) :
    (if p then .error e else x) = .ok y ↔ ¬ p ∧ x = .ok y := by
  split <;> simp_all

theorem validateIndex_ok_iff (r : RawIndex) : validateIndex r = .ok () ↔
    r.multi = true ∧ r.nlevels = 2 ∧ r.rows.Nodup ∧ idsInteger (r.rows.map (·.1)) = true ∧
    anyNeg (r.rows.map (·.1)) = false ∧ kindAllowed r.fixedDelta r.kind = true ∧
    ((r.kind = .u ∨ r.kind = .i ∨ r.kind = .f) → anyNeg (r.rows.map (·.2)) = false) ∧ r.rows ≠ [] ∧
    (newIds (r.rows.map (·.1))).Nodup ∧ anyNotSorted r.kind r.rows = false := by
  unfold validateIndex
  repeat rw [ite_error_ok]
  simp [or_assoc, anyDuplicated]

theorem validateIndex_raw (multi : Bool) (nl : Nat) (c : List (Row Rat Unit)) (k : Kind) (fd : Bool) :
    validateIndex ⟨multi, nl, raw c, k, fd⟩ = .ok () ↔
      multi = true ∧ nl = 2 ∧ AllowedKind fd k ∧ c ≠ [] ∧ Valid c ∧ (k ≠ .M → ∀ x ∈ c, 0 ≤ x.time) := by
  have e2 : (newIds ((raw c).map (·.1))).Nodup ↔ (newIds (c.map (·.id))).Nodup := by
    rw [raw_fst_injective, newIds_map _ (fun a b h => some_cast_inj.1 h)]
    exact List.nodup_map_iff (fun a b h => some_cast_inj.1 h)
  have e3 : raw c ≠ [] ↔ c ≠ [] := by simp [raw]
  have hM : k ≠ .M ↔ (k = .u ∨ k = .i ∨ k = .f) ∨ k = .other := by cases k <;> simp
  have hO : AllowedKind fd k → k ≠ .other := by
    rintro (h | h | ⟨_, h | h⟩) <;> simp [h]
  rw [validateIndex_ok_iff]
  simp only [nodup_raw, idsInteger_raw, anyNeg_raw, e2, e3, anyNotSorted_raw, kindAllowed_iff, anyNeg_raw_time]
  rw [valid_iff]
  constructor
  · rintro ⟨h1, h2, h3, -, -, h4, h5, h6, h7, h8⟩
    refine ⟨h1, h2, h4, h6, ⟨h7, (sorted_iff_pairwise c ((contiguous_iff_nodup _).2 h7)).1 h8⟩, ?_⟩
    intro h
    exact h5 ((hM.1 h).resolve_right (hO h4))
  · rintro ⟨h1, h2, h4, h6, ⟨h7, h8⟩, h5⟩
    exact ⟨h1, h2, nodup_keys_of_pairwise c h8, trivial, trivial, h4, fun h => h5 (hM.2 (Or.inl h)), h6, h7,
      (sorted_iff_pairwise c ((contiguous_iff_nodup _).2 h7)).2 h8⟩

/-! ### Property theorems -/

/-- **C01 (index).** For an index without NaN/NaT time values, the constructor accepts the index if and only if it is valid. -/
theorem C01_index_partial (r : RawIndex) (h : ∀ p ∈ r.rows, p.2 ≠ none) :
    validateIndex r = .ok () ↔ ValidIndex r := by
  obtain ⟨multi, nl, rows, k, fd⟩ := r
  constructor
  · intro hok
    obtain ⟨-, -, -, hi, hn, -⟩ := (validateIndex_ok_iff _).1 hok
    have hr := raw_typed rows hi hn h
    rw [← hr] at hok
    obtain ⟨h1, h2, h3, h4, h5, h6⟩ := (validateIndex_raw _ _ _ _ _).1 hok
    exact ⟨h1, h2, h3, typed rows, h4, hr.symm, h5, h6⟩
  · rintro ⟨h1, h2, h3, c, h4, h5, h6, h7⟩
    simp only at h1 h2 h3 h5 h7
    subst h5
    exact (validateIndex_raw _ _ _ _ _).2 ⟨h1, h2, h3, h4, h6, h7⟩

/-- The hypotheses are met by a non-trivial index: two series with IDs 3 and 1 (not ascending). -/
example : validateIndex ⟨true, 2, [(some 3, some 0), (some 3, some (1/2)), (some 1, some 0)], .f, false⟩ = .ok () := by
  rw [validateIndex_ok_iff]; decide +kernel

/-- The index that breaks C01: one series with time values `0, NaN, 0.5`. -/
def nanIndex : RawIndex := ⟨true, 2, [(some 0, some 0), (some 0, none), (some 0, some (1/2))], .f, false⟩

/-- **C01 is violated by NaN time values**: an index with a NaN time value is accepted although its time values are not
strictly increasing numbers. -/
theorem C01_index_violated : ∃ r : RawIndex, validateIndex r = .ok () ∧ ¬ ValidIndex r := by
  refine ⟨nanIndex, by rw [validateIndex_ok_iff]; decide +kernel, ?_⟩
  rintro ⟨_, _, _, c, _, h, _⟩
  have : ((some 0 : Option Rat), (none : Option Rat)) ∈ nanIndex.rows := by simp [nanIndex]
  rw [h] at this
  simp at this

theorem dedup_length_le_one_iff (l : List String) : ¬ (l.dedup.length > 1) ↔ ∀ a ∈ l, ∀ b ∈ l, a = b := by
  constructor
  · intro h a ha b hb
    have ha' := List.mem_dedup.2 ha
    have hb' := List.mem_dedup.2 hb
    match hl : l.dedup, ha', hb' with
    | [], h1, _ => simp [hl] at h1
    | [x], h1, h2 => simp [hl] at h1 h2; rw [h1, h2]
    | x :: y :: t, _, _ => simp [hl] at h
  · intro h hgt
    match hl : l.dedup with
    | [] => simp [hl] at hgt
    | [x] => simp [hl] at hgt
    | x :: y :: t =>
      have hx : x ∈ l := List.mem_dedup.1 (by simp [hl])
      have hy : y ∈ l := List.mem_dedup.1 (by simp [hl])
      have := List.nodup_dedup l
      rw [hl] at this
      simp [h x hx y hy] at this

/-- **C01 (columns).** Columns are accepted iff they are valid. -/
theorem C01_columns (c : RawColumns) : validateColumns c = .ok () ↔ ValidColumns c := by
  unfold validateColumns ValidColumns anyDuplicated
  simp only [ite_error_ok]
  have h := dedup_length_le_one_iff (c.labels.map (·.1))
  have h' : (∀ a ∈ c.labels.map (·.1), ∀ b ∈ c.labels.map (·.1), a = b) ↔ ∀ a ∈ c.labels, ∀ b ∈ c.labels, a.1 = b.1 := by
    simp only [List.mem_map]
    constructor
    · intro h a ha b hb; exact h _ ⟨a, ha, rfl⟩ _ ⟨b, hb, rfl⟩
    · rintro h _ ⟨a, ha, rfl⟩ _ ⟨b, hb, rfl⟩; exact h a ha b hb
  rw [← h', ← h]
  simp [and_assoc]

example : validateColumns ⟨1, [("str", "x1"), ("str", "x2")]⟩ = .ok () := by decide

/-- **C01 (typed).** The constructor applied to rows with non-negative integer IDs and comparable time values returns these rows
iff they form a non-empty valid collection, otherwise it raises. -/
theorem C01_typed {τ V : Type} [LinearOrder τ] (c : List (Row τ V)) :
    (construct c = .ok c ↔ c ≠ [] ∧ Valid c) ∧ (¬ (c ≠ [] ∧ Valid c) → ∃ e, construct c = .error e) := by
  have h : construct c = .ok c ↔ c ≠ [] ∧ Valid c := by rw [construct_ok_iff]; simp
  refine ⟨h, fun hn => ?_⟩
  match hc : construct c with
  | .ok c' =>
    have := (construct_ok_iff c c').1 hc
    exact absurd this.2 hn
  | .error e => exact ⟨e, rfl⟩

example : construct ([⟨5, 0, 1⟩, ⟨5, 2, 1⟩, ⟨2, 1, 7⟩] : List (Row Nat Nat)) = .ok [⟨5, 0, 1⟩, ⟨5, 2, 1⟩, ⟨2, 1, 7⟩] := by decide

end Verif.Tsc
