import Verif.Edmd.ColumnTransformer
import Verif.Edmd.DictionaryProps
import Verif.Edmd.StepwiseProps
/-! # The column transformer -/

namespace Verif.Dict

open Verif.Tsc Verif.Np Verif.Takens Verif.Utils

variable {α : Type}

/-! ## Lemmas -/

theorem mapM_some_iff {β γ : Type} (f : β → Option γ) : ∀ (l : List β) (vs : List γ), l.mapM f = some vs ↔ List.Forall₂ (fun a b => f a = some b) l vs
  | [], vs => by simp [eq_comm]
  | a :: l, vs => by
    rw [List.mapM_cons]
    cases h : f a with
    | none =>
      simp only [Option.bind_eq_bind, Option.bind_none]
      constructor
      · intro h'; simp at h'
      · intro h'; cases h' with | cons h1 _ => rw [h] at h1; simp at h1
    | some b =>
      cases h' : l.mapM f with
      | none =>
        simp only [Option.bind_eq_bind, Option.bind_some, Option.bind_none]
        constructor
        · intro h'; simp at h'
        · intro h''; cases h'' with | cons _ h2 => rw [← mapM_some_iff f l] at h2; rw [h'] at h2; simp at h2
      | some bs =>
        simp only [Option.bind_eq_bind, Option.bind_some, Option.pure_def, Option.some.injEq]
        constructor
        · rintro rfl; exact .cons h ((mapM_some_iff f l bs).1 h')
        · intro h''
          cases h'' with
          | cons h1 h2 =>
            rw [← mapM_some_iff f l, h'] at h2
            rw [h] at h1
            simp at h1 h2
            rw [h1, h2]

theorem mem_content {c : List (Row Int (List α))} {i : Nat} {t : Int} {v : List α} : (t, v) ∈ content c i ↔ (⟨i, t, v⟩ : Row Int (List α)) ∈ c := by
  unfold content
  constructor
  · intro h
    obtain ⟨r, hr, he⟩ := List.mem_map.1 h
    obtain ⟨h1, h2⟩ := mem_series.1 hr
    obtain ⟨rfl, rfl⟩ := Prod.mk.injEq .. ▸ he
    subst h2
    exact h1
  · intro h
    exact List.mem_map.2 ⟨_, mem_series.2 ⟨h, rfl⟩, rfl⟩

theorem content_sorted {c : List (Row Int (List α))} (hv : Valid c) (i : Nat) : (content c i).Pairwise (fun a b => a.1 < b.1) := by
  unfold content
  rw [List.pairwise_map]
  exact hv.series_sorted i

/-- Two series with the same samples are equal. -/
theorem eq_of_same_samples {β : Type} {l₁ l₂ : List (Int × β)} (h1 : l₁.Pairwise (fun a b => a.1 < b.1)) (h2 : l₂.Pairwise (fun a b => a.1 < b.1)) (h : ∀ a, a ∈ l₁ ↔ a ∈ l₂) :
    l₁ = l₂ := by
  have n1 : l₁.Nodup := h1.imp (fun h e => by rw [e] at h; exact lt_irrefl _ h)
  have n2 : l₂.Nodup := h2.imp (fun h e => by rw [e] at h; exact lt_irrefl _ h)
  exact ((List.perm_ext_iff_of_nodup n1 n2).2 h).eq_of_pairwise (fun a b _ _ hab hba => absurd hab (not_lt.2 hba.le)) h1 h2

theorem valueAt_some {D : Frame α} (hv : Valid D.rows) {k : Nat ×ₗ Int} {v : List α} : valueAt D k = some v ↔ ((ofLex k).2, v) ∈ content D.rows (ofLex k).1 := by
  unfold valueAt
  rw [mem_content]
  constructor
  · intro h
    obtain ⟨r, hr, rfl⟩ := Option.map_eq_some_iff.1 h
    have h1 := List.find?_some hr
    simp only [decide_eq_true_eq] at h1
    subst h1
    exact List.mem_of_find?_eq_some hr
  · intro h
    cases hf : D.rows.find? (fun r => decide (indexOf r = k)) with
    | none =>
      rw [List.find?_eq_none] at hf
      exact absurd (hf _ h) (by simp [indexOf])
    | some r =>
      have h1 := List.find?_some hf
      simp only [decide_eq_true_eq] at h1
      have h2 := List.mem_of_find?_eq_some hf
      have : r = ⟨(ofLex k).1, (ofLex k).2, v⟩ := by
        apply row_eq_of_key (nodup_keys_of_pairwise _ ((valid_iff _).1 hv).2) h2 h
        subst h1
        rfl
      rw [this]
      rfl

theorem unionIndex_mem {Ds : List (Frame α)} {k : Nat ×ₗ Int} : k ∈ unionIndex Ds ↔ ∃ D ∈ Ds, k ∈ D.rows.map indexOf := by
  cases Ds with
  | nil => simp [unionIndex]
  | cons D Ds =>
    simp only [unionIndex]
    split
    · rename_i h
      simp only [List.all_eq_true, decide_eq_true_eq] at h
      constructor
      · intro hk; exact ⟨D, by simp, hk⟩
      · rintro ⟨E, hE, hk⟩
        rcases List.mem_cons.1 hE with rfl | hE
        · exact hk
        · rwa [h E hE] at hk
    · rw [mem_unique, List.mem_flatMap]

/-- The index as rows without values. -/
def bare (k : Nat ×ₗ Int) : Row Int (List α) := ⟨(ofLex k).1, (ofLex k).2, []⟩

theorem valid_of_sorted {K : List (Nat ×ₗ Int)} (h : K.Pairwise (· < ·)) : Valid (K.map (bare (α := α))) := by
  have hp : (K.map (bare (α := α))).Pairwise (fun a b => a.id ≤ b.id ∧ Before a b) := by
    rw [List.pairwise_map]
    refine h.imp ?_
    intro a b hab
    rw [Prod.Lex.lt_iff] at hab
    constructor
    · rcases hab with h | h
      · exact h.le
      · exact h.1.le
    · intro he
      rcases hab with h | h
      · exact absurd he h.ne
      · exact h.2
  rw [valid_iff]
  refine ⟨?_, hp.imp (fun h => h.2)⟩
  rw [newIds_eq_ids]
  · exact ids_nodup _
  · rw [List.pairwise_map]; exact hp.imp (fun h => h.1)

theorem unionIndex_valid {Ds : List (Frame α)} (hv : ∀ D ∈ Ds, Valid D.rows) : Valid ((unionIndex Ds).map (bare (α := α))) := by
  cases Ds with
  | nil => rw [valid_iff]; simp [unionIndex, newIds]
  | cons D Ds =>
    simp only [unionIndex]
    split
    · refine (Edmd.keys_facts ?_).1 (hv D (by simp))
      rw [List.map_map, List.map_map]
      rfl
    · exact valid_of_sorted (unique_pairwise _)

theorem joined_valid {Ds : List (Frame α)} (hv : ∀ D ∈ Ds, Valid D.rows) : Valid ((unionIndex Ds).filterMap (joinRow Ds)) := by
  have hs : Valid (((unionIndex Ds).filter (fun k => (joinRow Ds k).isSome)).map (bare (α := α))) := (unionIndex_valid hv).sublist (List.filter_sublist.map _)
  refine (Edmd.keys_facts ?_).1 hs
  generalize unionIndex Ds = K
  induction K with
  | nil => rfl
  | cons k K ih =>
    rw [List.filterMap_cons]
    cases hk : joinRow Ds k with
    | none => simpa [hk] using ih
    | some r =>
      have : r.key = (bare (α := α) k).key := by
        unfold joinRow at hk
        obtain ⟨vs, -, rfl⟩ := Option.map_eq_some_iff.1 hk
        rfl
      simp only [hk, List.filter_cons, Option.isSome_some, if_true, List.map_cons, this]
      rw [ih]

theorem joined_mem {Ds : List (Frame α)} (hne : Ds ≠ []) (hv : ∀ D ∈ Ds, Valid D.rows) (i : Nat) (t : Int) (v : List α) :
    (t, v) ∈ content ((unionIndex Ds).filterMap (joinRow Ds)) i ↔ ∃ vs, List.Forall₂ (fun D w => (t, w) ∈ content D.rows i) Ds vs ∧ v = vs.flatten := by
  rw [mem_content, List.mem_filterMap]
  have hall : ∀ (l : List (Frame α)) (vs : List (List α)), (∀ D ∈ l, Valid D.rows) →
      (l.mapM (fun D => valueAt D (toLex (i, t))) = some vs ↔ List.Forall₂ (fun D w => (t, w) ∈ content D.rows i) l vs) := by
    intro l vs hl
    rw [mapM_some_iff]
    induction l generalizing vs with
    | nil => constructor <;> (intro h; cases h; exact .nil)
    | cons D l ih =>
      constructor
      · intro h
        cases h with
        | cons h1 h2 => exact .cons ((valueAt_some (hl D (by simp))).1 h1) ((ih _ (fun E hE => hl E (by simp [hE]))).1 h2)
      · intro h
        cases h with
        | cons h1 h2 => exact .cons ((valueAt_some (hl D (by simp))).2 h1) ((ih _ (fun E hE => hl E (by simp [hE]))).2 h2)
  constructor
  · rintro ⟨k, hk, hj⟩
    unfold joinRow at hj
    obtain ⟨vs, hvs, he⟩ := Option.map_eq_some_iff.1 hj
    simp only [Row.mk.injEq] at he
    obtain ⟨h1, h2, h3⟩ := he
    have hkk : k = toLex (i, t) := by rw [← h1, ← h2]; rfl
    subst hkk
    exact ⟨vs, (hall Ds vs hv).1 hvs, h3.symm⟩
  · rintro ⟨vs, h, rfl⟩
    refine ⟨toLex (i, t), ?_, ?_⟩
    · rw [unionIndex_mem]
      cases h with
      | nil => exact absurd rfl hne
      | cons h1 _ =>
        exact ⟨_, List.mem_cons_self, List.mem_map.2 ⟨_, mem_content.1 h1, rfl⟩⟩
    · unfold joinRow
      rw [(hall Ds vs hv).2 h]
      rfl

theorem foldr_max_le {ms : List Nat} {m : Nat} (h : m ∈ ms) : m ≤ ms.foldr max 1 := by
  induction ms with
  | nil => simp at h
  | cons a ms ih =>
    rcases List.mem_cons.1 h with rfl | h
    · simp
    · have := ih h; simp; omega

theorem foldr_max_mem {ms : List Nat} (h : ms ≠ []) (h1 : ∀ m ∈ ms, 1 ≤ m) : ms.foldr max 1 ∈ ms := by
  induction ms with
  | nil => exact absurd rfl h
  | cons a ms ih =>
    rw [List.foldr_cons]
    by_cases he : ms = []
    · subst he
      have := h1 a (by simp)
      simp; omega
    · have := ih he (fun m hm => h1 m (by simp [hm]))
      rcases max_choice a (ms.foldr max 1) with h | h <;> rw [h] <;> simp [this]

/-- The values of the columns `names`. -/
def pickVals [Zero α] (all names : List String) (v : List α) : List α := names.map (fun n => v.getD (all.idxOf n) 0)

theorem selectCols_ok [Zero α] {names : List String} {X S : Frame α} : selectCols names X = .ok S ↔ (∀ n ∈ names, n ∈ X.cols) ∧ S = ⟨names, mapVal (pickVals X.cols names) X.rows⟩ := by
  unfold selectCols
  split
  · rename_i h
    simp only [List.all_eq_true, decide_eq_true_eq] at h
    simp only [Except.ok.injEq]
    exact ⟨fun h' => ⟨h, h'.symm⟩, fun h' => h'.2.symm⟩
  · rename_i h
    simp only [List.all_eq_true, decide_eq_true_eq] at h
    simp [h]

theorem select_good [Zero α] {d : Int} {names : List String} {X : Frame α} (hX : Good d X) : Good d (⟨names, mapVal (pickVals X.cols names) X.rows⟩ : Frame α) := by
  refine ⟨mapVal_ne_nil.2 hX.ne, mapVal_valid.2 hX.valid, ?_, ?_, hX.bound⟩
  · intro r hr
    obtain ⟨x, -, rfl⟩ := List.mem_map.1 hr
    simp [pickVals]
  · intro i p hp
    refine hX.spaced i p ?_
    rw [← content_times] at hp ⊢
    simpa [mapVal_content, Function.comp_def] using hp

theorem select_minLength [Zero α] {m : Nat} {names : List String} {X : Frame α} (hX : MinLength m X) : MinLength m (⟨names, mapVal (pickVals X.cols names) X.rows⟩ : Frame α) := by
  intro i hi
  have h1 : (content (mapVal (pickVals X.cols names) X.rows) i).length = (content X.rows i).length := by rw [mapVal_content]; simp
  have := hX i (mapVal_hasId.1 hi)
  simp only [content, List.length_map] at h1
  show m ≤ (series (mapVal (pickVals X.cols names) X.rows) i).length
  omega

theorem MinLength.mono {m m' : Nat} {X : Frame α} (h : MinLength m X) (hm : m' ≤ m) : MinLength m' X := fun i hi => hm.trans (h i hi)

/-- What is known about a fitted part. -/
structure PartSpec (α : Type) where
  name : String
  cols : List String
  m : Nat
  φ : List (List α) → List α
  out : List String

def PartOk (d : Int) (f : FittedPart α) (c : PartSpec α) : Prop := f.name = c.name ∧ f.cols = c.cols ∧ 1 ≤ c.m ∧ Causal d c.m c.cols c.out c.φ f.run

/-- The part looks at the selected columns. -/
def PartSpec.psi [Zero α] (all : List String) (c : PartSpec α) (w : List (List α)) : List α := c.φ (w.map (pickVals all c.cols))

theorem fitParts_spec [Zero α] {d : Int} {M : Nat} {X : Frame α} (hX : Good d X) (hl : MinLength M X) :
    ∀ {ps : List (Part α)} {ms : List Nat} {fs : List (FittedPart α)} {Ds : List (Frame α)}, List.Forall₂ (fun (p : Part α) m => CausalStep p.step m) ps ms → (∀ m ∈ ms, m ≤ M) →
      fitParts ps X = .ok fs → runParts fs X = .ok Ds →
      ∃ cs : List (PartSpec α), List.Forall₂ (PartOk d) fs cs ∧ cs.map (·.m) = ms ∧ ∀ c ∈ cs, ∀ n ∈ c.cols, n ∈ X.cols := by
  intro ps ms fs Ds h
  induction h generalizing fs Ds with
  | nil =>
    intro _ hf _
    simp only [fitParts, Except.ok.injEq] at hf
    subst hf
    exact ⟨[], .nil, rfl, by simp⟩
  | cons h1 h2 ih =>
    rename_i p m ps ms
    intro hm hf hr
    simp only [fitParts] at hf
    split at hf
    · simp at hf
    rename_i S hS
    split at hf
    · simp at hf
    rename_i T hT
    split at hf
    · simp at hf
    rename_i fs' hfs
    simp only [Except.ok.injEq] at hf
    subst hf
    simp only [runParts, hS] at hr
    split at hr
    · simp at hr
    rename_i D hD
    split at hr
    · simp at hr
    rename_i Ds' hDs
    obtain ⟨cs, hc1, hc2, hc3⟩ := ih (fun m hm' => hm m (by simp [hm'])) hfs hDs
    obtain ⟨hn, rfl⟩ := selectCols_ok.1 hS
    obtain ⟨φ, out, hca⟩ := h1.2 d _ T D (select_good hX) (select_minLength (hl.mono (hm m (by simp)))) hT hD
    refine ⟨⟨p.name, p.cols, m, φ, out⟩ :: cs, .cons ⟨rfl, rfl, h1.1, hca⟩ hc1, by simp [hc2], ?_⟩
    intro c hc
    rcases List.mem_cons.1 hc with rfl | hc
    · exact hn
    · exact hc3 c hc

theorem runParts_spec [Zero α] {d : Int} {M : Nat} {Z : Frame α} (hZ : Good d Z) (hl : MinLength M Z) :
    ∀ {fs : List (FittedPart α)} {cs : List (PartSpec α)}, List.Forall₂ (PartOk d) fs cs → (∀ c ∈ cs, c.m ≤ M ∧ ∀ n ∈ c.cols, n ∈ Z.cols) →
      ∃ Ws, runParts fs Z = .ok Ws ∧ List.Forall₂ (fun (W : Frame α) (c : PartSpec α) => Good d W ∧ W.cols = c.out.map (fun l => c.name ++ "__" ++ l) ∧
        ∀ i, content W.rows i = causal c.m (c.psi Z.cols) (content Z.rows i)) Ws cs := by
  intro fs cs h
  induction h with
  | nil => intro _; exact ⟨[], rfl, .nil⟩
  | cons h1 h2 ih =>
    rename_i f c fs cs
    intro hc
    obtain ⟨Ws, hW1, hW2⟩ := ih (fun c hc' => hc c (by simp [hc']))
    obtain ⟨hm, hn⟩ := hc c (by simp)
    obtain ⟨e1, e2, -, hca⟩ := h1
    obtain ⟨W, hW, hg, hco, hid, hcont⟩ := hca _ (select_good hZ (names := c.cols)) rfl (select_minLength (hl.mono hm))
    have hS : selectCols f.cols Z = .ok ⟨c.cols, mapVal (pickVals Z.cols c.cols) Z.rows⟩ := by rw [selectCols_ok, e2]; exact ⟨hn, rfl⟩
    refine ⟨renamed f.name W :: Ws, ?_, .cons ⟨?_, ?_, ?_⟩ hW2⟩
    · simp only [runParts, hS, hW, hW1]
    · exact ⟨hg.ne, hg.valid, by simpa [renamed] using hg.rect, hg.spaced, hg.bound⟩
    · simp [renamed, hco, e1]
    · intro i
      show content W.rows i = _
      rw [hcont]
      show causal c.m c.φ (content (mapVal (pickVals Z.cols c.cols) Z.rows) i) = _
      rw [mapVal_content]
      simp [causal, PartSpec.psi, List.map_drop, List.map_take, Function.comp_def]

/-- The samples of `causal`, by the last sample that is looked at. -/
theorem mem_causal {m : Nat} (hm : 1 ≤ m) {φ : List (List α) → List α} {s : List (Int × List α)} {t : Int} {v : List α} :
    (t, v) ∈ causal m φ s ↔ ∃ j, m ≤ j + 1 ∧ j < s.length ∧ t = (s.map (·.1)).getD j 0 ∧ v = φ (((s.map (·.2)).drop (j + 1 - m)).take m) := by
  unfold causal
  rw [List.mem_map]
  constructor
  · rintro ⟨q, hq, he⟩
    have hq := List.mem_range.1 hq
    simp only [Prod.mk.injEq] at he
    refine ⟨q + m - 1, by omega, by omega, he.1.symm, ?_⟩
    rw [← he.2, show q + m - 1 + 1 - m = q by omega]
  · rintro ⟨j, h1, h2, rfl, rfl⟩
    refine ⟨j + 1 - m, List.mem_range.2 (by omega), ?_⟩
    rw [show j + 1 - m + m - 1 = j by omega]

theorem causal_sorted {m : Nat} (hm : 1 ≤ m) {φ : List (List α) → List α} {s : List (Int × List α)} (hs : s.Pairwise (fun a b => a.1 < b.1)) :
    (causal m φ s).Pairwise (fun a b => a.1 < b.1) := by
  rw [← List.pairwise_map (f := Prod.fst) (R := (· < ·)), causal_times hm]
  exact List.Pairwise.drop (List.pairwise_map.2 hs)

theorem sorted_index_unique {s : List (Int × List α)} (hs : s.Pairwise (fun a b => a.1 < b.1)) {a b : Nat} (ha : a < s.length) (hb : b < s.length)
    (h : (s.map (·.1)).getD a 0 = (s.map (·.1)).getD b 0) : a = b := by
  rw [List.pairwise_iff_getElem] at hs
  simp only [List.getD_eq_getElem?_getD, List.getElem?_map, List.getElem?_eq_getElem ha, List.getElem?_eq_getElem hb, Option.map_some, Option.getD_some] at h
  rcases lt_trichotomy a b with hab | hab | hab
  · have := hs a b ha hb hab; omega
  · exact hab
  · have := hs b a hb ha hab; omega

/-- The joined series of parts that look back by different numbers of samples. -/
theorem join_causal [Zero α] {all : List String} {Ws : List (Frame α)} {cs : List (PartSpec α)} {i : Nat} {s : List (Int × List α)} (hs : s.Pairwise (fun a b => a.1 < b.1))
    (hW : List.Forall₂ (fun (W : Frame α) (c : PartSpec α) => 1 ≤ c.m ∧ content W.rows i = causal c.m (c.psi all) s) Ws cs) {M : Nat}
    (hM : ∀ c ∈ cs, c.m ≤ M) (hMm : ∃ c ∈ cs, c.m = M) (t : Int) (v : List α) :
    (∃ vs, List.Forall₂ (fun (D : Frame α) w => (t, w) ∈ content D.rows i) Ws vs ∧ v = vs.flatten) ↔
      (t, v) ∈ causal M (fun w => cs.flatMap (fun c => c.psi all (w.drop (M - c.m)))) s := by
  have hM1 : 1 ≤ M := by
    obtain ⟨c, hc, rfl⟩ := hMm
    clear hM
    induction hW with
    | nil => simp at hc
    | cons h1 _ ih =>
      rcases List.mem_cons.1 hc with rfl | hc
      · exact h1.1
      · exact ih hc
  rw [mem_causal hM1]
  constructor
  · rintro ⟨vs, hvs, rfl⟩
    have key : ∀ (Ws : List (Frame α)) (cs : List (PartSpec α)) (vs : List (List α)),
        List.Forall₂ (fun (W : Frame α) (c : PartSpec α) => 1 ≤ c.m ∧ content W.rows i = causal c.m (c.psi all) s) Ws cs →
        List.Forall₂ (fun (D : Frame α) w => (t, w) ∈ content D.rows i) Ws vs →
        (∀ c ∈ cs, ∃ j, c.m ≤ j + 1 ∧ j < s.length ∧ t = (s.map (·.1)).getD j 0) ∧
        (∀ j, j < s.length → t = (s.map (·.1)).getD j 0 → vs = cs.map (fun c => c.psi all (((s.map (·.2)).drop (j + 1 - c.m)).take c.m))) := by
      intro Ws cs vs h1
      induction h1 generalizing vs with
      | nil => intro h2; cases h2; simp
      | cons h _ ih =>
        intro h2
        cases h2 with
        | cons h2 h3 =>
          obtain ⟨ih1, ih2⟩ := ih _ h3
          rw [h.2, mem_causal h.1] at h2
          obtain ⟨j, hj1, hj2, hj3, hj4⟩ := h2
          constructor
          · intro c hc
            rcases List.mem_cons.1 hc with rfl | hc
            · exact ⟨j, hj1, hj2, hj3⟩
            · exact ih1 c hc
          · intro j' hj' ht
            have := sorted_index_unique hs hj2 hj' (by rw [← hj3, ← ht])
            subst this
            rw [List.map_cons, ← ih2 j hj' ht, hj4]
    obtain ⟨k1, k2⟩ := key Ws cs vs hW hvs
    obtain ⟨c, hc, rfl⟩ := hMm
    obtain ⟨j, hj1, hj2, hj3⟩ := k1 c hc
    refine ⟨j, hj1, hj2, hj3, ?_⟩
    rw [k2 j hj2 hj3, ← List.flatMap_def]
    apply List.flatMap_congr
    intro c' hc'
    have := hM c' hc'
    rw [List.drop_take, List.drop_drop]
    congr 2
    · omega
    · congr 1; omega
  · rintro ⟨j, h1, h2, h3, rfl⟩
    refine ⟨cs.map (fun c => c.psi all (((s.map (·.2)).drop (j + 1 - c.m)).take c.m)), ?_, ?_⟩
    · clear hMm
      induction hW with
      | nil => exact .nil
      | cons h _ ih =>
        rw [List.map_cons]
        refine .cons ?_ (ih (fun c hc => hM c (by simp [hc])))
        rw [h.2, mem_causal h.1]
        exact ⟨j, (hM _ (by simp)).trans h1, h2, h3, rfl⟩
    · rw [← List.flatMap_def]
      apply List.flatMap_congr
      intro c' hc'
      have := hM c' hc'
      rw [List.drop_take, List.drop_drop]
      congr 2
      · omega
      · congr 1; omega

/-! ## Properties -/

/-- C158: the result of a column transformer has exactly the samples that all its parts have, and their values are put side by side in the order of the parts. -/
theorem C158_joined {Ds : List (Frame α)} (hne : Ds ≠ []) (hv : ∀ D ∈ Ds, Valid D.rows) {R : Frame α} (h : hstack Ds = .ok R) :
    Valid R.rows ∧ R.cols = Ds.flatMap (·.cols) ∧
      ∀ i t v, (t, v) ∈ content R.rows i ↔ ∃ vs, List.Forall₂ (fun D w => (t, w) ∈ content D.rows i) Ds vs ∧ v = vs.flatten := by
  unfold hstack at h
  split at h
  · simp at h
  rename_i rows hb
  simp only [Except.ok.injEq] at h
  subst h
  obtain ⟨rfl, -, -⟩ := build_ok_iff.1 hb
  exact ⟨joined_valid hv, rfl, joined_mem hne hv⟩

/-- C158: it raises if and only if no sample is common to all parts. -/
theorem C158_accepts {Ds : List (Frame α)} (hne : Ds ≠ []) (hv : ∀ D ∈ Ds, Valid D.rows) :
    (∃ R, hstack Ds = .ok R) ↔ ∃ i t, ∀ D ∈ Ds, ∃ w, (t, w) ∈ content D.rows i := by
  have hfor : ∀ (Ds : List (Frame α)) i t, (∃ vs, List.Forall₂ (fun (D : Frame α) w => (t, w) ∈ content D.rows i) Ds vs) ↔ ∀ D ∈ Ds, ∃ w, (t, w) ∈ content D.rows i := by
    intro Ds i t
    induction Ds with
    | nil => simp
    | cons D Ds ih =>
      constructor
      · rintro ⟨vs, h⟩
        cases h with
        | cons h1 h2 =>
          intro E hE
          rcases List.mem_cons.1 hE with rfl | hE
          · exact ⟨_, h1⟩
          · exact ih.1 ⟨_, h2⟩ E hE
      · intro h
        obtain ⟨w, hw⟩ := h D (by simp)
        obtain ⟨vs, hvs⟩ := ih.2 (fun E hE => h E (by simp [hE]))
        exact ⟨w :: vs, .cons hw hvs⟩
  constructor
  · rintro ⟨R, h⟩
    obtain ⟨-, -, hm⟩ := C158_joined hne hv h
    unfold hstack at h
    split at h
    · simp at h
    rename_i rows hb
    simp only [Except.ok.injEq] at h
    subst h
    have hn : rows ≠ [] := by rw [← (build_ok_iff.1 hb).1]; exact (build_ok_iff.1 hb).2.1
    obtain ⟨r, hr⟩ := List.exists_mem_of_ne_nil _ hn
    obtain ⟨vs, h1, -⟩ := (hm r.id r.time r.val).1 (mem_content.2 hr)
    exact ⟨r.id, r.time, (hfor Ds _ _).1 ⟨vs, h1⟩⟩
  · rintro ⟨i, t, h⟩
    obtain ⟨vs, hvs⟩ := (hfor Ds i t).2 h
    have hmem := (joined_mem hne hv i t _).2 ⟨vs, hvs, rfl⟩
    refine ⟨⟨Ds.flatMap (·.cols), (unionIndex Ds).filterMap (joinRow Ds)⟩, ?_⟩
    unfold hstack
    rw [build_ok_of_valid (joined_valid hv) (List.ne_nil_of_mem (mem_content.1 hmem))]

/-- C158: what a fitted column transformer computes, in terms of its parts. -/
theorem C158_parts [Zero α] {fs : List (FittedPart α)} {Y : Frame α} {R : Frame α} (h : runColumns fs Y = .ok R) :
    ∃ Ds, List.Forall₂ (fun (f : FittedPart α) D => (∀ n ∈ f.cols, n ∈ Y.cols) ∧
        ∃ D', f.run ⟨f.cols, mapVal (fun v => f.cols.map (fun n => v.getD (Y.cols.idxOf n) 0)) Y.rows⟩ = .ok D' ∧ D = renamed f.name D') fs Ds ∧ hstack Ds = .ok R := by
  unfold runColumns at h
  split at h
  · simp at h
  rename_i Ds hDs
  refine ⟨Ds, ?_, h⟩
  clear h
  induction fs generalizing Ds with
  | nil => simp only [runParts, Except.ok.injEq] at hDs; subst hDs; exact .nil
  | cons f fs ih =>
    simp only [runParts] at hDs
    split at hDs
    · simp at hDs
    rename_i S hS
    split at hDs
    · simp at hDs
    rename_i D hD
    split at hDs
    · simp at hDs
    rename_i Ds' hDs'
    simp only [Except.ok.injEq] at hDs
    subst hDs
    obtain ⟨hn, rfl⟩ := selectCols_ok.1 hS
    exact .cons ⟨hn, D, hD, rfl⟩ (ih Ds' hDs')

/-- C158: a column transformer whose parts look back by `ms` samples looks back by the largest of them, so that `C155_dictionary` applies to a dictionary with column transformers. -/
theorem C158_memory [Zero α] {ps : List (Part α)} {ms : List Nat} (hne : ps ≠ []) (hs : List.Forall₂ (fun (p : Part α) m => CausalStep p.step m) ps ms) :
    CausalStep (columnStep ps) (ms.foldr max 1) := by
  have hms : ms ≠ [] := by
    rintro rfl; cases hs; exact hne rfl
  have hm1 : ∀ m ∈ ms, 1 ≤ m := by
    clear hne hms
    induction hs with
    | nil => simp
    | cons h _ ih =>
      intro m hm
      rcases List.mem_cons.1 hm with rfl | hm
      · exact h.1
      · exact ih m hm
  refine ⟨hm1 _ (foldr_max_mem hms hm1), ?_⟩
  intro d X T Y hX hl hT hY
  unfold columnStep at hT
  split at hT
  · simp at hT
  rename_i fs hfs
  simp only [Except.ok.injEq] at hT
  subst hT
  obtain ⟨Ds, hDs⟩ : ∃ Ds, runParts fs X = .ok Ds := by
    unfold runColumns at hY
    split at hY
    · simp at hY
    · exact ⟨_, by assumption⟩
  obtain ⟨cs, hc1, hc2, hc3⟩ := fitParts_spec hX hl hs (fun m hm => foldr_max_le hm) hfs hDs
  have hcm : ∀ c ∈ cs, c.m ≤ ms.foldr max 1 := fun c hc => foldr_max_le (by rw [← hc2]; exact List.mem_map_of_mem hc)
  refine ⟨fun w => cs.flatMap (fun c => c.psi X.cols (w.drop (ms.foldr max 1 - c.m))), cs.flatMap (fun c => c.out.map (fun l => c.name ++ "__" ++ l)), ?_⟩
  intro Z hZ hcols hlz
  obtain ⟨Ws, hW1, hW2⟩ := runParts_spec hZ hlz hc1 (fun c hc => ⟨hcm c hc, by rw [hcols]; exact hc3 c hc⟩)
  have hvW : ∀ W ∈ Ws, Valid W.rows ∧ Rect W.cols.length W.rows := by
    clear hW1 hc1 hcm hc2 hc3
    induction hW2 with
    | nil => simp
    | cons h _ ih =>
      intro W hW
      rcases List.mem_cons.1 hW with rfl | hW
      · exact ⟨h.1.valid, h.1.rect⟩
      · exact ih W hW
  have hcs : cs ≠ [] := by rintro rfl; exact hms hc2.symm
  have hWne : Ws ≠ [] := by rintro rfl; cases hW2; exact hcs rfl
  have hW3 : ∀ i, List.Forall₂ (fun (W : Frame α) (c : PartSpec α) => 1 ≤ c.m ∧ content W.rows i = causal c.m (c.psi X.cols) (content Z.rows i)) Ws cs := by
    intro i
    rw [hcols] at hW2
    have h1c : ∀ c ∈ cs, 1 ≤ c.m := fun c hc => hm1 _ (by rw [← hc2]; exact List.mem_map_of_mem hc)
    clear hW1 hc1 hcm hc2 hc3 hcs hWne hvW
    induction hW2 with
    | nil => exact .nil
    | cons h _ ih => exact .cons ⟨h1c _ (by simp), h.2.2 i⟩ (ih (fun c hc => h1c c (by simp [hc])))
  have hMm : ∃ c ∈ cs, c.m = ms.foldr max 1 := by
    have := foldr_max_mem hms hm1
    rw [← hc2] at this
    obtain ⟨c, hc, he⟩ := List.mem_map.1 this
    exact ⟨c, hc, by rw [he, hc2]⟩
  have hcont : ∀ i, content ((unionIndex Ws).filterMap (joinRow Ws)) i =
      causal (ms.foldr max 1) (fun w => cs.flatMap (fun c => c.psi X.cols (w.drop (ms.foldr max 1 - c.m)))) (content Z.rows i) := by
    intro i
    refine eq_of_same_samples (content_sorted (joined_valid (fun W hW => (hvW W hW).1)) i) (causal_sorted (hm1 _ (foldr_max_mem hms hm1)) (content_sorted hZ.valid i)) ?_
    rintro ⟨t, v⟩
    rw [joined_mem hWne (fun W hW => (hvW W hW).1), join_causal (content_sorted hZ.valid i) (hW3 i) hcm hMm]
  have hcolsOut : Ws.flatMap (·.cols) = cs.flatMap (fun c => c.out.map (fun l => c.name ++ "__" ++ l)) := by
    clear hW1 hc1 hcm hc2 hc3 hcs hWne hvW hMm hW3 hcont
    induction hW2 with
    | nil => rfl
    | cons h _ ih => rw [List.flatMap_cons, List.flatMap_cons, ih, h.2.1]
  have hrect : Rect (Ws.flatMap (·.cols)).length ((unionIndex Ws).filterMap (joinRow Ws)) := by
    intro r hr
    obtain ⟨vs, h1, h2⟩ := (joined_mem hWne (fun W hW => (hvW W hW).1) r.id r.time r.val).1 (mem_content.2 hr)
    rw [h2]
    clear hW1 hc1 hcm hc2 hc3 hcs hWne hMm hW3 hcont hcolsOut hW2 h2 hr
    induction h1 with
    | nil => rfl
    | cons h _ ih =>
      rw [List.flatten_cons, List.flatMap_cons, List.length_append, List.length_append, ih (fun W hW => hvW W (by simp [hW]))]
      congr 1
      exact (hvW _ (by simp)).2 _ (mem_content.1 h)
  have hgood : Good d (⟨Ws.flatMap (·.cols), (unionIndex Ws).filterMap (joinRow Ws)⟩ : Frame α) :=
    good_of_causal (hm1 _ (foldr_max_mem hms hm1)) hZ hlz (joined_valid (fun W hW => (hvW W hW).1)) hrect hcont
  refine ⟨⟨Ws.flatMap (·.cols), (unionIndex Ws).filterMap (joinRow Ws)⟩, ?_, hgood, hcolsOut, causal_hasId (hm1 _ (foldr_max_mem hms hm1)) hlz hcont, hcont⟩
  unfold runColumns
  rw [hW1]
  simp only [hstack]
  rw [build_ok_of_valid hgood.valid hgood.ne]

/-- C158: `n_features_out_` is the number of columns of the result if every column of the data is given to some transformer. -/
theorem C158_count_partial [Zero α] {fs : List (FittedPart α)} {Y R : Frame α} (h : runColumns fs Y = .ok R) (hall : ∀ c ∈ Y.cols, ∃ f ∈ fs, c ∈ f.cols) :
    ∃ ps : List (List String × Nat), ps.map (·.1) = fs.map (·.cols) ∧ nFeaturesOut Y.cols ps = some R.cols.length := by
  obtain ⟨Ds, h1, h2⟩ := C158_parts h
  have hR : R.cols = Ds.flatMap (·.cols) := by
    unfold hstack at h2
    split at h2
    · simp at h2
    · simp only [Except.ok.injEq] at h2; rw [← h2]
  have hlen := h1.length_eq
  refine ⟨(fs.map (·.cols)).zip (Ds.map (·.cols.length)), ?_, ?_⟩
  · rw [List.map_fst_zip]; simp [hlen]
  · unfold nFeaturesOut
    rw [if_pos, List.map_snd_zip, hR, List.length_flatMap]
    · simp [hlen]
    · simp only [List.all_eq_true, List.any_eq_true, decide_eq_true_eq]
      intro c hc
      obtain ⟨f, hf, hcf⟩ := hall c hc
      have : f.cols ∈ ((fs.map (·.cols)).zip (Ds.map (·.cols.length))).map Prod.fst := by
        rw [List.map_fst_zip (by simp [hlen])]; exact List.mem_map_of_mem hf
      obtain ⟨p, hp, he⟩ := List.mem_map.1 this
      exact ⟨p, hp, by rw [he]; exact hcf⟩

/-! ## Examples -/

/-- Two columns; the IDs are not in ascending order. -/
def exTwo : Frame ℚ := ⟨["x", "y"], [⟨1, 0, [0, 5]⟩, ⟨1, 1, [1, 6]⟩, ⟨1, 2, [4, 7]⟩, ⟨0, 5, [2, 8]⟩, ⟨0, 6, [3, 9]⟩]⟩

/-- A delay embedding of `x` and the squares of `y`. -/
def exParts : List (Part ℚ) := [⟨"delay", ["x"], takensStep ⟨0, 1, 1⟩ none⟩, ⟨"square", ["y"], rowStep (fun _ v => v.map (fun a => a * a)) id⟩]

theorem exParts_causal : List.Forall₂ (fun (p : Part ℚ) m => CausalStep p.step m) exParts [2, 1] :=
  .cons (takens_causal ⟨0, 1, 1⟩ none) (.cons (row_causal _ _ (by intro X v hv; simp [hv])) .nil)

/-- C158: `n_features_out_` raises if a column has no transformer, although `transform` works. -/
theorem C158_count_violated : ∃ T R, columnStep [exParts.getLast (by decide)] exTwo = .ok T ∧ T exTwo = .ok R ∧ R.cols = ["square__y"] ∧ nFeaturesOut exTwo.cols [(["y"], 1)] = none := by
  have h : (columnStep [exParts.getLast (by decide)] exTwo).toOption.any (fun T => (T exTwo).toOption.any (fun R => decide (R.cols = ["square__y"]))) = true := by decide +kernel
  obtain ⟨T, hT, h⟩ := ok_of_any h
  obtain ⟨R, hR, h⟩ := ok_of_any h
  exact ⟨T, R, hT, hR, by simpa using h, by decide +kernel⟩

/-- The joined result: one sample less per series, the index sorted. -/
example : (columnStep exParts exTwo).toOption.any (fun T => (T exTwo).toOption.any (fun R => decide (R = ⟨["delay__x", "delay__x:d1", "square__y"],
    [⟨0, 6, [3, 2, 81]⟩, ⟨1, 1, [1, 0, 36]⟩, ⟨1, 2, [4, 1, 49]⟩]⟩))) = true := by decide +kernel

example : CausalStep (columnStep exParts) 2 := C158_memory (by decide) exParts_causal

/-- No common sample. -/
example : (hstack [(⟨["x"], [⟨0, 0, [1]⟩]⟩ : Frame ℚ), ⟨["y"], [⟨0, 1, [1]⟩]⟩]).toOption = none := by decide +kernel

end Verif.Dict
