import Verif.Tsc.Orient
import Verif.Tsc.ShiftProps
import Verif.Tsc.StatesProps
import Verif.Tsc.DeltaProps
import Verif.Tsc.CheckProps
import Verif.Tsc.IcProps
/-! # Properties of the orientation of shift matrices (C04), negative numbers of samples (C07), default time values (C02) and the tolerance for large intervals (C12, C127) -/

namespace Verif.Tsc

open Verif.Np

/-! ### Specification -/

/-- The snapshots of an array, as lists of features: its columns or its rows. -/
def snapshotsOf : Orientation → NpMat → List (List ℂ)
  | .col, A => (List.finRange A.cols).map (fun j => (List.finRange A.rows).map (fun i => A.val i j))
  | .row, A => (List.finRange A.rows).map (fun i => (List.finRange A.cols).map (fun j => A.val i j))

/-- The number of features of a snapshot. -/
def nFeatures : Orientation → NpMat → Nat
  | .col, A => A.rows
  | .row, A => A.cols

/-- The name of an orientation in the documentation. -/
def Orientation.name : Orientation → String
  | .col => "col"
  | .row => "row"

/-- All entries are real numbers. -/
def NpMat.IsReal (A : NpMat) : Prop := ∀ i j, (A.val i j).im = 0

/-- The array of the real parts. -/
noncomputable def NpMat.realPart (A : NpMat) : NpMat := ⟨A.rows, A.cols, fun i j => ((A.val i j).re : ℂ)⟩

/-! ### Lemmas -/

theorem NpMat.ext' {A B : NpMat} (hr : A.rows = B.rows) (hc : A.cols = B.cols)
    (h : ∀ i j (hi : i < A.rows) (hj : j < A.cols), A.val ⟨i, hi⟩ ⟨j, hj⟩ = B.val ⟨i, hr ▸ hi⟩ ⟨j, hc ▸ hj⟩) : A = B := by
  obtain ⟨r, c, f⟩ := A
  obtain ⟨r', c', g⟩ := B
  simp only at hr hc
  subst hr; subst hc
  congr
  funext i j
  exact h i j i.2 j.2

theorem realPart_eq_iff (A : NpMat) : A.realPart = A ↔ A.IsReal := by
  constructor
  · intro h i j
    have hf : A.realPart.val = A.val := by
      have : ∀ {B : NpMat}, (hB : B = A) → (hr : B.rows = A.rows) → (hc : B.cols = A.cols) → ∀ i j, B.val i j = A.val (i.cast hr) (j.cast hc) := by
        rintro B rfl _ _ i j; rfl
      funext i j
      exact this h rfl rfl i j
    have := congrFun (congrFun hf i) j
    rw [← this]; exact Complex.ofReal_im _
  · intro h
    refine NpMat.ext' rfl rfl (fun i j hi hj => ?_)
    exact Complex.ext rfl ((Complex.ofReal_im _).trans (h _ _).symm)

theorem ofRows_store (A : NpMat) : NpMat.ofRows A.cols (A.rowList.map storeFloat) = A.realPart := by
  refine NpMat.ext' (by simp [NpMat.ofRows, NpMat.rowList, NpMat.realPart]) rfl (fun i j hi hj => ?_)
  have hj' : j < A.cols := hj
  simp [NpMat.ofRows, NpMat.rowList, NpMat.realPart, storeFloat, List.getD, hj']

theorem readOrientation_name (o : Orientation) : readOrientation o.name = .ok o ∧ readOrientation o.name.toLower = .ok o := by
  cases o <;> exact ⟨by decide +kernel, by decide +kernel⟩

theorem rowList_toRows (o : Orientation) (A : NpMat) : (o.toRows A).rowList = snapshotsOf o A := by cases o <;> rfl

theorem cols_toRows (o : Orientation) (A : NpMat) : (o.toRows A).cols = nFeatures o A := by cases o <;> rfl

theorem length_snapshots (o : Orientation) (A : NpMat) : (snapshotsOf o A).length = (o.toRows A).rows := by cases o <;> simp [snapshotsOf, Orientation.toRows, NpMat.T]

theorem toRows_realPart (o : Orientation) (A : NpMat) : o.toRows ((o.toRows A).realPart) = A.realPart := by cases o <;> rfl

theorem store_real {o : Orientation} {A : NpMat} (h : A.IsReal) : (snapshotsOf o A).map storeFloat = snapshotsOf o A := by
  have e : ∀ i j, ((A.val i j).re : ℂ) = A.val i j := fun i j => Complex.ext (by simp) (by simp [h i j])
  cases o <;> simp [snapshotsOf, storeFloat, Function.comp_def, e]

theorem shift_regular {L R : List (List ℂ)} {t0 t1 : Int} {c : List (Row Int (List ℂ))} (hl : L.length = R.length) (hid : ∀ i, HasId c i ↔ i < L.length)
    (hcont : ∀ i (hi : i < L.length), content c i = [(t0, L[i]), (t1, R[i])]) : ∀ i, HasId c i → Regular (timesOf c i) (t1 - t0) := by
  intro i hi
  have h := hcont i ((hid i).1 hi)
  have ht : timesOf c i = [t0, t1] := by
    have := congrArg (List.map Prod.fst) h
    simpa [content, timesOf, Function.comp_def] using this
  rw [ht]
  exact ⟨by simp, by simp [consecutive]⟩

/-! ### C04 -/

/-- Both orientations, complex entries: what is read are the real parts. -/
theorem shift_oriented_store (k : TimeKind) (o : Orientation) (L R : NpMat) (hr : L.rows = R.rows) (hc : L.cols = R.cols) (hpos : snapshotsOf o L ≠ []) {t0 t1 : Int} (ht : t0 < t1) :
    ∃ c, fromShiftOriented o.name L R t0 t1 = .ok (nFeatures o L, c) ∧ Valid c ∧ (∀ i, HasId c i ↔ i < (snapshotsOf o L).length) ∧
      (∀ i (hi : i < (snapshotsOf o L).length) (hi' : i < (snapshotsOf o R).length), content c i = [(t0, storeFloat (snapshotsOf o L)[i]), (t1, storeFloat (snapshotsOf o R)[i])]) ∧
      shiftOriented k o.name (nFeatures o L) c = .ok (L.realPart, R.realPart) := by
  have hrows : (o.toRows L).rows = (o.toRows R).rows := by cases o <;> assumption
  have hcols : (o.toRows L).cols = (o.toRows R).cols := by cases o <;> assumption
  have hlen : ((snapshotsOf o L).map storeFloat).length = ((snapshotsOf o R).map storeFloat).length := by
    simp [length_snapshots, hrows]
  obtain ⟨c, h1, hv, h2, hid, hcont⟩ := C04_round_trip ((snapshotsOf o L).map storeFloat) ((snapshotsOf o R).map storeFloat) t0 t1 hlen (by simpa using hpos) ht
  have hcne : c ≠ [] := by
    have h0 : HasId c 0 := (hid 0).2 (by rw [List.length_map]; exact List.length_pos_iff.2 hpos)
    obtain ⟨r, hr, -⟩ := h0
    exact List.ne_nil_of_mem hr
  refine ⟨c, ?_, hv, fun i => by rw [hid i, List.length_map], ?_, ?_⟩
  · unfold fromShiftOriented
    rw [(readOrientation_name o).2]
    simp only
    rw [if_pos ⟨hrows, hcols⟩, rowList_toRows, rowList_toRows, h1, cols_toRows]
  · intro i hi hi'
    have := hcont i (by simpa using hi)
    simpa using this
  · unfold shiftOriented
    rw [h2]
    simp only
    rw [if_pos (by
      unfold isConstDeltaTime
      rw [C11_regular hcne hv k (shift_regular hlen hid hcont)]; rfl), (readOrientation_name o).1]
    simp only
    rw [← rowList_toRows, ← rowList_toRows, ← cols_toRows, ofRows_store]
    rw [hcols, ofRows_store, toRows_realPart, toRows_realPart]

/-- **C04 (orientation).** In both orientations, for real arrays of the same shape and two increasing time values: series `i` of the collection goes from the `i`-th snapshot of the left
to the `i`-th snapshot of the right array, there are no other series, and `shift_matrices` with the same orientation returns the two arrays. -/
theorem C04_orientation_partial (k : TimeKind) (o : Orientation) (L R : NpMat) (hL : L.IsReal) (hR : R.IsReal) (hr : L.rows = R.rows) (hc : L.cols = R.cols) (hpos : snapshotsOf o L ≠ []) {t0 t1 : Int} (ht : t0 < t1) :
    ∃ c, fromShiftOriented o.name L R t0 t1 = .ok (nFeatures o L, c) ∧ Valid c ∧ (∀ i, HasId c i ↔ i < (snapshotsOf o L).length) ∧
      (∀ i (hi : i < (snapshotsOf o L).length) (hi' : i < (snapshotsOf o R).length), content c i = [(t0, (snapshotsOf o L)[i]), (t1, (snapshotsOf o R)[i])]) ∧
      shiftOriented k o.name (nFeatures o L) c = .ok (L, R) := by
  obtain ⟨c, h1, h2, h3, h4, h5⟩ := shift_oriented_store k o L R hr hc hpos ht
  refine ⟨c, h1, h2, h3, ?_, by rw [h5, (realPart_eq_iff L).2 hL, (realPart_eq_iff R).2 hR]⟩
  intro i hi hi'
  rw [h4 i hi hi']
  have el : storeFloat (snapshotsOf o L)[i] = (snapshotsOf o L)[i] := by
    have := List.getElem_of_eq (store_real (o := o) hL) (i := i) (by simpa using hi)
    simpa using this
  have er : storeFloat (snapshotsOf o R)[i] = (snapshotsOf o R)[i] := by
    have := List.getElem_of_eq (store_real (o := o) hR) (i := i) (by simpa using hi')
    simpa using this
  rw [el, er]

/-- non-vacuity: two arrays of three snapshots with two features -/
example : ∃ L R : NpMat, L.IsReal ∧ R.IsReal ∧ L.rows = R.rows ∧ L.cols = R.cols ∧ L.rows = 2 ∧ snapshotsOf .col L = [[0, 0], [0, 1], [0, 2]] ∧ R.val ≠ fun _ _ => 0 :=
  ⟨⟨2, 3, fun i j => ((i.val * j.val : ℕ) : ℂ)⟩, ⟨2, 3, fun _ _ => 1⟩, fun i j => by simp, fun i j => by simp, rfl, rfl, rfl, by
    simp [snapshotsOf, List.finRange_succ], fun h => by simpa using congrFun (congrFun h 0) 0⟩

/-- **C04 (both orientations).** Transposed arrays with the other orientation give the same collection, and reading a collection in the other orientation gives the transposed arrays, for
all arrays and collections. -/
theorem C04_transpose (L R : NpMat) (t0 t1 : Int) (k : TimeKind) (n : Nat) (c : List (Row Int (List ℂ))) :
    fromShiftOriented "col" L.T R.T t0 t1 = fromShiftOriented "row" L R t0 t1 ∧
      (∀ A B, shiftOriented k "row" n c = .ok (A, B) ↔ shiftOriented k "col" n c = .ok (A.T, B.T)) := by
  have hT : ∀ A : NpMat, A.T.T = A := fun _ => rfl
  have hTi : ∀ A B : NpMat, A.T = B.T ↔ A = B := fun A B => ⟨fun h => by rw [← hT A, h, hT], fun h => by rw [h]⟩
  constructor
  · unfold fromShiftOriented
    rw [show readOrientation "col".toLower = .ok .col from by decide +kernel, show readOrientation "row".toLower = .ok .row from by decide +kernel]
    rfl
  · intro A B
    unfold shiftOriented
    rw [show readOrientation "col" = .ok .col from by decide +kernel, show readOrientation "row" = .ok .row from by decide +kernel]
    cases shiftMatrices c with
    | error e => simp
    | ok p =>
      simp only
      split
      · simp only [Orientation.toRows, Except.ok.injEq, Prod.mk.injEq, hTi]
      · simp

/-- **C04 is violated for complex arrays**: the collection holds the real parts, so that the arrays are recovered exactly if all their entries are real. -/
theorem C04_complex_violated (k : TimeKind) (o : Orientation) (L R : NpMat) (hr : L.rows = R.rows) (hc : L.cols = R.cols) (hpos : snapshotsOf o L ≠ []) {t0 t1 : Int} (ht : t0 < t1) :
    ∃ c, fromShiftOriented o.name L R t0 t1 = .ok (nFeatures o L, c) ∧ shiftOriented k o.name (nFeatures o L) c = .ok (L.realPart, R.realPart) ∧
      (shiftOriented k o.name (nFeatures o L) c = .ok (L, R) ↔ L.IsReal ∧ R.IsReal) := by
  obtain ⟨c, h1, -, -, -, h5⟩ := shift_oriented_store k o L R hr hc hpos ht
  exact ⟨c, h1, h5, by rw [h5, Except.ok.injEq, Prod.mk.injEq, realPart_eq_iff, realPart_eq_iff]⟩

example : ¬ (⟨1, 1, fun _ _ => Complex.I⟩ : NpMat).IsReal := fun h => by simpa using h 0 0

/-- **C04 (shapes).** Arrays of different shape are rejected in both orientations. -/
theorem C04_shapes (o : Orientation) (L R : NpMat) (h : ¬ (L.rows = R.rows ∧ L.cols = R.cols)) (t0 t1 : Int) : fromShiftOriented o.name L R t0 t1 = .error .shapeMismatch := by
  unfold fromShiftOriented
  rw [(readOrientation_name o).2]
  simp only
  rw [if_neg]
  cases o
  · exact fun h' => h ⟨h'.2, h'.1⟩
  · exact h

/-- **C04 is violated for the name of the orientation**: `"Col"` is accepted by `from_shift_matrices`, but `shift_matrices` never accepts it. -/
theorem C04_case_violated (L R : NpMat) (t0 t1 : Int) (k : TimeKind) (n : Nat) (c : List (Row Int (List ℂ))) :
    fromShiftOriented "Col" L R t0 t1 = fromShiftOriented "col" L R t0 t1 ∧ ¬ ∃ p, shiftOriented k "Col" n c = .ok p := by
  constructor
  · unfold fromShiftOriented
    rw [show "Col".toLower = "col".toLower from by decide +kernel]
  · rintro ⟨p, h⟩
    unfold shiftOriented at h
    rw [show readOrientation "Col" = .error .orientation from by decide +kernel] at h
    cases hs : shiftMatrices c with
    | error e => rw [hs] at h; cases h
    | ok q =>
      rw [hs] at h
      simp only at h
      split at h <;> cases h

/-! ### C07 -/

variable {τ V : Type} [LinearOrder τ]

theorem filter_keys_sublist {S c : List (Row τ V)} (h : S.Sublist c) (hnd : (c.map (·.key)).Nodup) : c.filter (fun r => (S.map (·.key)).contains r.key) = S := by
  induction h with
  | slnil => rfl
  | @cons S l a h ih =>
    rw [List.map_cons, List.nodup_cons] at hnd
    rw [List.filter_cons_of_neg, ih hnd.2]
    simp only [List.contains_iff_mem]
    intro hm
    exact hnd.1 ((h.map _).subset hm)
  | @cons_cons S l a h ih =>
    rw [List.map_cons, List.nodup_cons] at hnd
    rw [List.filter_cons_of_pos (by simp), ← ih hnd.2]
    congr 1
    rw [ih hnd.2]
    refine Eq.trans (List.filter_congr ?_) (ih hnd.2)
    intro r hr
    have hne : r.key ≠ a.key := fun e => hnd.1 (e ▸ List.mem_map_of_mem hr)
    rw [Bool.eq_iff_iff, List.contains_iff_mem, List.contains_iff_mem, List.map_cons, List.mem_cons]
    exact ⟨fun h => h.resolve_left hne, Or.inr⟩

theorem dropKeys_twice {S c : List (Row τ V)} (h : S.Sublist c) (hnd : (c.map (·.key)).Nodup) : dropKeys c ((dropKeys c (S.map (·.key))).map (·.key)) = S := by
  refine Eq.trans (List.filter_congr ?_) (filter_keys_sublist h hnd)
  intro r hr
  rw [Bool.eq_iff_iff, Bool.not_eq_true', ← Bool.not_eq_true, List.contains_iff_mem, List.contains_iff_mem, List.mem_map]
  constructor
  · intro h1
    by_contra h2
    refine h1 ⟨r, ?_, rfl⟩
    unfold dropKeys
    rw [List.mem_filter]
    exact ⟨hr, by simpa [List.contains_iff_mem] using h2⟩
  · rintro h1 ⟨r', hr', e⟩
    unfold dropKeys at hr'
    rw [List.mem_filter] at hr'
    have := hr'.2
    rw [e] at this
    simp [List.contains_iff_mem] at this
    obtain ⟨x, hx, hxe⟩ := List.mem_map.1 h1
    exact this x hx hxe

/-- **C07 (integers; partial).** For non-negative numbers of samples `drop_last_n_samples` is the operation of `C07_drop_last` and `C07_rejects`. -/
theorem C07_nonnegative_partial {c : List (Row τ V)} (hc : c ≠ []) (hv : Valid c) {n : Int} (hn : 0 ≤ n) :
    (∀ d, dropLastInt c n = .ok d → ∀ i, ((series c i).length - (series d i).length : Int) = min n (series c i).length ∧ series d i <+: series c i) ∧
      ((∃ d, dropLastInt c n = .ok d) ↔ (∀ i, HasId c i → n ≤ (series c i).length) ∧ ∃ i, n < (series c i).length) := by
  obtain ⟨m, rfl⟩ := Int.eq_ofNat_of_zero_le hn
  have e : dropLastInt c (m : Int) = dropLastN c m := by
    unfold dropLastInt dropLastN groupTailInt
    rw [if_pos hn, Int.toNat_natCast]
  rw [e]
  by_cases h : (∀ i, HasId c i → m ≤ (series c i).length) ∧ ∃ i, m < (series c i).length
  · obtain ⟨d, hd, -, hs, -⟩ := C07_drop_last hc hv m h.1 h.2
    refine ⟨?_, ⟨fun _ => ⟨fun i hi => by exact_mod_cast h.1 i hi, by obtain ⟨i, hi⟩ := h.2; exact ⟨i, by exact_mod_cast hi⟩⟩, fun _ => ⟨d, hd⟩⟩⟩
    intro d' hd' i
    rw [hd] at hd'; cases hd'
    rw [hs i, List.length_take]
    exact ⟨by omega, List.take_prefix _ _⟩
  · have hex : ∃ e, dropLastN c m = .error e := by
      apply C07_rejects hc hv m
      by_contra h'
      push Not at h'
      apply h
      refine ⟨fun i hi => h'.1 i hi, h'.2⟩
    obtain ⟨e, he⟩ := hex
    refine ⟨fun d hd => (by rw [he] at hd; cases hd), ⟨?_, ?_⟩⟩
    · rintro ⟨d, hd⟩; rw [he] at hd; cases hd
    · rintro ⟨h1, i, h2⟩
      exact absurd ⟨fun i hi => by exact_mod_cast h1 i hi, i, by exact_mod_cast h2⟩ h

/-- **C07 is violated for negative numbers**, which are accepted: `drop_last_n_samples(-k)` keeps the first `k` samples of each series, for every collection. -/
theorem C07_negative_violated {c : List (Row τ V)} (hc : c ≠ []) (hv : Valid c) (k : Nat) (hk : 1 ≤ k) :
    ∃ d, dropLastInt c (-(k : Int)) = .ok d ∧ Valid d ∧ ∀ i, series d i = (series c i).take k := by
  have hnd : (c.map (·.key)).Nodup := nodup_keys_of_pairwise c ((valid_iff c).1 hv).2
  have hsub := groupHead_sublist k [] c
  have hser : ∀ i, series (groupHead k [] c) i = (series c i).take k := by intro i; rw [series_groupHead]; simp
  have hval : Valid (groupHead k [] c) := hv.sublist hsub
  have hne : groupHead k [] c ≠ [] := by
    intro e
    obtain ⟨r, l, rfl⟩ := List.ne_nil_iff_exists_cons.1 hc
    have := hser r.id
    rw [e] at this
    have h2 : series (r :: l) r.id = r :: series l r.id := by simp [series]
    rw [h2] at this
    obtain ⟨k, rfl⟩ : ∃ q, k = q + 1 := ⟨k - 1, by omega⟩
    simp [series] at this
  refine ⟨groupHead k [] c, ?_, hval, hser⟩
  unfold dropLastInt groupTailInt
  rw [if_neg (show ¬ (0 : Int) ≤ -(k : Int) by omega), neg_neg, Int.toNat_natCast, dropKeys_twice hsub hnd,
    (checkMinTimesteps_iff hc _).2 (fun i _ => by have : (0 : Int) ≤ (series c i).length := Int.natCast_nonneg _; omega)]
  exact build_ok_of_valid hval hne

/-- three samples, of which the last one is meant to be dropped by `n = -1` as in Python slices: the first is kept -/
example : dropLastInt ([⟨0, 0, 'a'⟩, ⟨0, 1, 'b'⟩, ⟨0, 2, 'c'⟩] : List (Row Int Char)) (-1) = .ok [⟨0, 0, 'a'⟩] := by decide +kernel

/-! ### C02 -/

/-- **C02 (default time values).** Without time values the `j`-th row of a slice is stored at time `j`. -/
theorem C02_default (n : Nat) (tensor : List (List V)) (tsIds : Option (List Nat)) (hn : 0 < n) (htn : tensor ≠ []) (hs : ∀ s ∈ tensor, s.length = n)
    (hids : ∀ l, tsIds = some l → l.length = tensor.length ∧ l.Nodup) :
    ∃ c, fromTensorDefault n tensor tsIds none = .ok c ∧ Valid c ∧ (∀ i, HasId c i ↔ i ∈ tsIds.getD (List.range tensor.length)) ∧
      ∀ k (hk : k < tensor.length) (hk' : k < (tsIds.getD (List.range tensor.length)).length) j (hj : j < n),
        (content c (tsIds.getD (List.range tensor.length))[k]).length = n ∧
          (content c (tsIds.getD (List.range tensor.length))[k])[j]? = some ((j : Int), (tensor[k])[j]'(by rw [hs _ (List.getElem_mem hk)]; exact hj)) := by
  have hinc : ((List.range n).map (fun j : Nat => (j : Int))).Pairwise (· < ·) := by
    rw [List.pairwise_map]
    exact List.pairwise_lt_range.imp (fun h => by exact_mod_cast h)
  obtain ⟨c, h1, h2, -, h4, h5⟩ := C02_from_tensor n tensor tsIds ((List.range n).map (fun j : Nat => (j : Int))) hn htn hs (by simp) (hinc.imp (fun h => ne_of_lt h)) hids
  refine ⟨c, h1, h2, h4, fun k hk hk' j hj => ?_⟩
  have hl := hs _ (List.getElem_mem hk)
  rw [(h5 k hk hk').2.2 hinc]
  refine ⟨by simp [hl], ?_⟩
  rw [List.getElem?_eq_getElem (by simp [hl, hj])]
  simp

example : ∃ c, fromTensorDefault 2 [['a', 'b'], ['c', 'd']] (some [5, 2]) none = .ok c ∧ (content c 5)[1]? = some (1, 'b') := by
  obtain ⟨c, h1, -, -, h4⟩ := C02_default 2 [['a', 'b'], ['c', 'd']] (some [5, 2]) (by decide) (by decide) (by decide) (by simp)
  exact ⟨c, h1, (h4 0 (by decide) (by decide) 1 (by decide)).2⟩

/-! ### The tolerance for large intervals -/

/-- **C12 (rejection) is violated by the tolerance** of C11: a collection with the intervals `10¹²` and `10¹² + 1` is normalised, and one sample is moved. -/
theorem C12_tolerance_violated : ∃ c : List (Row Int Nat), Valid c ∧ (¬ ∃ d, ∀ i, HasId c i → Regular (timesOf c i) d) ∧
    normalizeTime .int c = .ok [⟨0, 0, 0⟩, ⟨0, 1, 0⟩, ⟨1, 0, 0⟩, ⟨1, 1, 0⟩] := by
  refine ⟨[⟨0, 0, 0⟩, ⟨0, 1000000000000, 0⟩, ⟨1, 0, 0⟩, ⟨1, 1000000000001, 0⟩], ?_, ?_, by decide +kernel⟩
  · rw [valid_iff]; exact ⟨by decide, by unfold Before; decide +kernel⟩
  · rintro ⟨d, h⟩
    have h0 := (h 0 ⟨⟨0, 0, 0⟩, by simp, rfl⟩).2 (0, 1000000000000) (by decide +kernel)
    have h1 := (h 1 ⟨⟨1, 0, 0⟩, by simp, rfl⟩).2 (0, 1000000000001) (by decide +kernel)
    omega

/-- **C127 is violated by the tolerance**: an initial condition with the interval `10¹² + 1` is accepted where `10¹²` is required. -/
theorem C127_tolerance_violated : ∃ c : List (Row Int Nat), Valid c ∧ Regular (timesOf c 0) 1000000000001 ∧ (∀ i, HasId c i ↔ i = 0) ∧
    icValidate .int (fun _ => true) 1 (some 2) (some 1000000000000) c = .ok () := by
  refine ⟨[⟨0, 0, 0⟩, ⟨0, 1000000000001, 0⟩], ?_, ?_, ?_, by decide +kernel⟩
  · rw [valid_iff]; exact ⟨by decide, by unfold Before; decide +kernel⟩
  · unfold Regular; decide +kernel
  · intro i; simp [HasId, eq_comm]

end Verif.Tsc
