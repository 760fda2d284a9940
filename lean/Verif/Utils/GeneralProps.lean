import Verif.Utils.General
import Mathlib.Data.Matrix.Mul
import Mathlib.Tactic.Linarith
import Mathlib.Tactic.FieldSimp
import Mathlib.Data.Nat.Cast.Field
import Mathlib.Algebra.CharZero.Defs
/-! # Properties C22, C23, C24, C64, C70, C71: `utils/general.py` -/

namespace Verif.Utils

/-! ## C24 -/

/-- `x` is a float or integer object with an integral value. -/
def Integral : PyObj → Prop
  | .int _ => True
  | .float q | .npfloat q => q.den = 1
  | _ => False

theorem truncate_eq_zero (q : Rat) : truncate q = 0 ↔ |q| < 1 := by
  unfold truncate
  split
  · rename_i h
    rw [Int.floor_eq_zero_iff, Set.mem_Ico, abs_of_nonneg h]
    exact ⟨fun h => h.2, fun h' => ⟨h, h'⟩⟩
  · rename_i h
    push Not at h
    rw [abs_of_neg h, Int.ceil_eq_zero_iff, Set.mem_Ioc]
    constructor
    · intro h'; linarith [h'.1]
    · intro h'; exact ⟨by linarith, h.le⟩

theorem truncate_quotient {q : Rat} (h : 1 ≤ |q|) : truncate q ≠ 0 ∧ (q / truncate q = 1 ↔ q.den = 1) := by
  have h0 : truncate q ≠ 0 := by rw [Ne, truncate_eq_zero]; linarith
  have h0' : (truncate q : Rat) ≠ 0 := by exact_mod_cast h0
  refine ⟨h0, ?_⟩
  rw [div_eq_one_iff_eq h0']
  constructor
  · intro he
    rw [he]; simp
  · intro he
    have hq : q = (q.num : Rat) := by
      conv => lhs; rw [← Rat.num_div_den q, he]
      simp
    unfold truncate
    split
    · conv => rhs; rw [hq, Int.floor_intCast]
      exact hq
    · conv => rhs; rw [hq, Int.ceil_intCast]
      exact hq

/-- **C24 (partial).** On integers, on floats of Python of magnitude at least one, on all finite floats of numpy but zero and on other objects the answer is right. -/
theorem C24_is_integer_partial (x : PyObj) (h : match x with | .float q => 1 ≤ |q| | .npfloat q => q ≠ 0 | .inf => False | .nan => False | _ => True) :
    ∃ b, isInteger x = .ok b ∧ (b = true ↔ Integral x) := by
  cases x with
  | int n => exact ⟨true, rfl, by simp [Integral]⟩
  | float q =>
    obtain ⟨h0, h1⟩ := truncate_quotient h
    exact ⟨decide (q / truncate q = 1), by simp [isInteger, h0], by rw [decide_eq_true_iff, h1]; rfl⟩
  | npfloat q =>
    have h : q ≠ 0 := h
    by_cases hq : 1 ≤ |q|
    · obtain ⟨h0, h1⟩ := truncate_quotient hq
      exact ⟨decide (q / truncate q = 1), by simp [isInteger, h0], by rw [decide_eq_true_iff, h1]; rfl⟩
    · push Not at hq
      refine ⟨false, by simp [isInteger, (truncate_eq_zero q).2 hq], ?_⟩
      simp only [Bool.false_eq_true, false_iff]
      intro he
      have he : q.den = 1 := he
      have hq' : q = (q.num : Rat) := by
        conv => lhs; rw [← Rat.num_div_den q, he]
        simp
      rw [hq'] at hq h
      have h1 : |q.num| < 1 := by exact_mod_cast hq
      have h2 : q.num ≠ 0 := by exact_mod_cast h
      exact h2 (Int.abs_lt_one_iff.1 h1)
  | inf => exact absurd h (by simp)
  | nan => exact absurd h (by simp)
  | other => exact ⟨false, rfl, by simp [Integral]⟩

example : isInteger (.float (-3)) = .ok true ∧ isInteger (.float (5/2)) = .ok false ∧ isInteger (.npfloat (1/2)) = .ok false := by decide +kernel

/-- **C24 fails:** every float of Python strictly between -1 and 1, in particular `0.0`, raises ZeroDivisionError; infinity and nan raise as well; `np.float64(0.0)` is not an integer. -/
theorem C24_is_integer_violated : (∀ q : Rat, |q| < 1 → isInteger (.float q) = .error .zeroDivision) ∧
    isInteger (.float 0) = .error .zeroDivision ∧ isInteger .inf = .error .overflow ∧ isInteger .nan = .error .value ∧ isInteger (.npfloat 0) = .ok false ∧ Integral (.npfloat 0) := by
  have h : ∀ q : Rat, |q| < 1 → isInteger (.float q) = .error .zeroDivision := by
    intro q hq
    simp [isInteger, (truncate_eq_zero q).2 hq]
  exact ⟨h, h 0 (by simp), rfl, rfl, by decide +kernel, rfl⟩

/-- **C24** `is_scalar` answers for every object, without an exception: exactly the numbers are scalars. -/
theorem C24_is_scalar (x : PyObj) : isScalar x = .ok (decide (x ≠ .other)) := by
  cases x <;> simp [isScalar, isFloat, isInteger]

/-! ## C22 -/

/-- Value of the feature `n` in a row with the features `all`. -/
def featureValue {α : Type} (all : List String) (x : Nat → α) (n : String) : α := x (all.idxOf n)

theorem projectIndices_names (all sel : List String) : (projectIndices all sel).map (fun i => all.getD i "") = all.filter (fun n => decide (n ∈ sel)) := by
  unfold projectIndices
  have : all = (List.range all.length).map (fun i => all.getD i "") := by
    apply List.ext_getElem
    · simp
    · intro i h1 h2; simp [h1]
  conv => rhs; rw [this, List.filter_map]
  rfl

theorem rowMul_single {α : Type} [Semiring α] (n : Nat) (x : Nat → α) (idx : List Nat) (k : Nat) (hk : k < idx.length) (hi : idx[k] < n) :
    rowMul n x (fun i k => if idx[k]? = some i then 1 else 0) k = x idx[k] := by
  unfold rowMul
  rw [Finset.sum_eq_single idx[k]]
  · simp [hk]
  · intro b _ hb
    have : idx[k]? ≠ some b := by rw [List.getElem?_eq_getElem hk]; simpa using fun e => hb e.symm
    simp only [if_neg this, mul_zero]
  · intro h; exact absurd (Finset.mem_range.2 hi) h

/-- **C22 (what the matrix does).** For distinct feature names, whenever a matrix is returned the product has one column per selected name, and these are the selected features
in the order of `features_all`. -/
theorem C22_projection_partial {α : Type} [Semiring α] (all sel : List String) (hall : all.Nodup) {P : Nat → Nat → α}
    (h : projectionMatrix all sel = some P) (x : Nat → α) :
    (all.filter (fun n => decide (n ∈ sel))).length = sel.length ∧
    (List.range sel.length).map (rowMul all.length x P) = (all.filter (fun n => decide (n ∈ sel))).map (featureValue all x) := by
  unfold projectionMatrix at h
  simp only at h
  split at h
  · simp at h
  · rename_i hl
    simp only [Option.some.injEq] at h
    subst h
    have hl : (projectIndices all sel).length = sel.length := by simpa using hl
    have hn := projectIndices_names all sel
    refine ⟨by rw [← hn, List.length_map, hl], ?_⟩
    rw [← hn, List.map_map]
    apply List.ext_getElem
    · simp [hl]
    · intro k h1 h2
      have hk : k < (projectIndices all sel).length := by simpa using h2
      have hmem := List.getElem_mem hk
      have hlt : (projectIndices all sel)[k] < all.length := by
        have := (List.mem_filter.1 hmem).1
        simpa using this
      simp only [List.getElem_map, List.getElem_range, Function.comp]
      rw [rowMul_single _ _ _ _ hk hlt]
      unfold featureValue
      congr 1
      have : all.getD (projectIndices all sel)[k] "" = all[(projectIndices all sel)[k]] := by simp [hlt]
      rw [this, hall.idxOf_getElem]

/-- **C22 (in order).** If `select` lists its features in the order of `features_all`, the product has exactly the columns of `select`. -/
theorem C22_in_order {α : Type} [Semiring α] (all sel : List String) (hall : all.Nodup) (hs : sel.Sublist all) (x : Nat → α) :
    ∃ P : Nat → Nat → α, projectionMatrix all sel = some P ∧ (List.range sel.length).map (rowMul all.length x P) = sel.map (featureValue all x) := by
  have hf : all.filter (fun n => decide (n ∈ sel)) = sel := by
    have h1 : (all.filter (fun n => decide (n ∈ sel))).Perm sel := by
      rw [List.perm_ext_iff_of_nodup (hall.filter _) (hall.sublist hs)]
      intro a
      simp only [List.mem_filter, decide_eq_true_eq]
      exact ⟨fun h => h.2, fun h => ⟨hs.subset h, h⟩⟩
    have h2 : sel.Sublist (all.filter (fun n => decide (n ∈ sel))) := by
      have := hs.filter (fun n => decide (n ∈ sel))
      rwa [List.filter_eq_self.2 (by simp)] at this
    exact (h2.eq_of_length h1.length_eq.symm).symm
  have hl : (projectIndices all sel).length = sel.length := by
    have := congrArg List.length (projectIndices_names all sel)
    rw [hf, List.length_map] at this; exact this
  have hP : projectionMatrix all sel = some (fun i k => if (projectIndices all sel)[k]? = some i then (1 : α) else 0) := by
    simp [projectionMatrix, hl]
  refine ⟨_, hP, ?_⟩
  have := (C22_projection_partial all sel hall hP x).2
  rw [hf] at this; exact this

example : (["a", "c"] : List String).Sublist ["a", "b", "c"] ∧ (["a", "b", "c"] : List String).Nodup := by decide

/-- **C22 fails** for a re-ordered selection: the columns come in the order of `features_all`. -/
theorem C22_projection_violated : ∃ (all sel : List String) (P : Nat → Nat → Int) (x : Nat → Int), all.Nodup ∧ sel.Nodup ∧ (∀ n ∈ sel, n ∈ all) ∧
    projectionMatrix all sel = some P ∧ (List.range sel.length).map (rowMul all.length x P) ≠ sel.map (featureValue all x) := by
  refine ⟨["a", "b"], ["b", "a"], fun i k => if [0, 1][k]? = some i then 1 else 0, fun i => i, by decide, by decide, by decide, ?_, by decide⟩
  have : projectIndices ["a", "b"] ["b", "a"] = [0, 1] := by decide
  simp [projectionMatrix, this]

/-- **C22 (rejection).** A selected name that does not occur, or a repeated one, raises (for distinct `features_all`). -/
theorem C22_rejects {α : Type} [Semiring α] (all sel : List String) (hall : all.Nodup) (h : ¬ sel.Nodup ∨ ∃ n ∈ sel, n ∉ all) :
    projectionMatrix (α := α) all sel = none := by
  have hn := congrArg List.length (projectIndices_names all sel)
  rw [List.length_map] at hn
  unfold projectionMatrix
  simp only
  rw [if_pos]
  rw [hn]
  intro he
  have hsub : (all.filter (fun n => decide (n ∈ sel))).Subperm sel := by
    apply List.subperm_of_subset (hall.filter _)
    intro a ha; simpa using (List.mem_filter.1 ha).2
  have hperm := hsub.perm_of_length_le (by omega)
  rcases h with h | ⟨n, h1, h2⟩
  · exact h (hperm.nodup_iff.1 (hall.filter _))
  · have := hperm.mem_iff.2 h1
    exact h2 (List.mem_filter.1 this).1

/-! ## C23 -/

section C23
variable {α W : Type} [LinearOrder α]

theorem range_filterMap {β : Type} (l : List β) : (List.range l.length).filterMap (fun i => l[i]?) = l := by
  induction l using List.reverseRecOn with
  | nil => rfl
  | append_singleton l a ih =>
    rw [List.length_append, List.length_singleton, List.range_succ, List.filterMap_append]
    congr 1
    · conv => rhs; rw [← ih]
      apply List.filterMap_congr
      intro i hi
      rw [List.getElem?_append_left (List.mem_range.1 hi)]
    · simp

theorem filterMap_perm {β : Type} (l : List β) (idx : List Nat) (h : idx.Perm (List.range l.length)) : (idx.filterMap (fun i => l[i]?)).Perm l := by
  have := h.filterMap (fun i => l[i]?)
  rwa [range_filterMap] at this

theorem filterMap_zip {β γ : Type} (a : List β) (b : List γ) (hl : a.length = b.length) (idx : List Nat) (h : ∀ i ∈ idx, i < a.length) :
    (idx.filterMap (fun i => a[i]?)).zip (idx.filterMap (fun i => b[i]?)) = idx.filterMap (fun i => (a.zip b)[i]?) := by
  induction idx with
  | nil => rfl
  | cons i idx ih =>
    have hi := h i (by simp)
    have ih := ih (fun j hj => h j (by simp [hj]))
    have e1 : a[i]? = some a[i] := List.getElem?_eq_getElem hi
    have e2 : b[i]? = some (b[i]'(by omega)) := List.getElem?_eq_getElem (by omega)
    have e3 : (a.zip b)[i]? = some (a[i], b[i]'(by omega)) := by
      rw [List.getElem?_eq_getElem (by simp; omega)]; simp
    rw [List.filterMap_cons, List.filterMap_cons, List.filterMap_cons, e1, e2, e3]
    simp [ih]

theorem filterMap_length {β : Type} (a : List β) (idx : List Nat) (h : ∀ i ∈ idx, i < a.length) : (idx.filterMap (fun i => a[i]?)).length = idx.length := by
  induction idx with
  | nil => rfl
  | cons i idx ih =>
    rw [List.filterMap_cons, List.getElem?_eq_getElem (h i (by simp))]
    simp [ih (fun j hj => h j (by simp [hj]))]

theorem idx_lt {l : List (Cpx α)} {idx : List Nat} (h : IsArgsort l idx) (asc : Bool) : ∀ i ∈ (if asc then idx else idx.reverse), i < l.length := by
  intro i hi
  have : i ∈ idx := by cases asc <;> simpa using hi
  exact List.mem_range.1 (h.1.mem_iff.1 this)

theorem idx_perm {l : List (Cpx α)} {idx : List Nat} (h : IsArgsort l idx) (asc : Bool) : (if asc then idx else idx.reverse).Perm (List.range l.length) := by
  cases asc
  · exact (List.reverse_perm idx).trans h.1
  · exact h.1

/-- **C23 (permutation).** Whatever order `argsort` picks among equal values, the returned triples (eigenvalue, right vector, left vector) are a permutation of the given triples. -/
theorem C23_permutation (ev : List (Cpx α)) (right left : List W) (hr : ev.length = right.length) (hl : ev.length = left.length) {idx : List Nat}
    (h : IsArgsort ev idx) (asc : Bool) :
    let r := sortEigenpairs ev right left idx asc
    (r.1.zip (r.2.1.zip r.2.2)).Perm (ev.zip (right.zip left)) := by
  simp only [sortEigenpairs]
  have hlt := idx_lt h asc
  generalize hi : (if asc then idx else idx.reverse) = ix at hlt ⊢
  rw [filterMap_zip right left (by omega) ix (by rwa [← hr]), filterMap_zip ev (right.zip left) (by simp; omega) ix hlt]
  apply filterMap_perm
  rw [← hi]
  have := idx_perm h asc
  rwa [show (ev.zip (right.zip left)).length = ev.length by simp; omega]

/-- **C23 (the order).** The eigenvalues are sorted by real part, then imaginary part: ascending or descending. -/
theorem C23_order (ev : List (Cpx α)) (right left : List W) {idx : List Nat} (h : IsArgsort ev idx) :
    (sortEigenpairs ev right left idx true).1.Pairwise Cpx.le ∧ (sortEigenpairs ev right left idx false).1.Pairwise (fun a b => Cpx.le b a) := by
  refine ⟨h.2, ?_⟩
  simp only [sortEigenpairs, Bool.false_eq_true, if_false, List.filterMap_reverse, List.pairwise_reverse]
  exact h.2

end C23

/-- **C23 (partial).** For real non-negative eigenvalues the result is sorted by magnitude, as documented. -/
theorem C23_magnitude_partial {α W : Type} [Field α] [LinearOrder α] [IsStrictOrderedRing α] (ev : List (Cpx α)) (right left : List W) {idx : List Nat} (h : IsArgsort ev idx)
    (hpos : ∀ a ∈ ev, 0 ≤ a.re ∧ a.im = 0) :
    (sortEigenpairs ev right left idx true).1.Pairwise (fun a b => a.re ^ 2 + a.im ^ 2 ≤ b.re ^ 2 + b.im ^ 2) ∧
    (sortEigenpairs ev right left idx false).1.Pairwise (fun a b => b.re ^ 2 + b.im ^ 2 ≤ a.re ^ 2 + a.im ^ 2) := by
  have hle : ∀ a ∈ ev, ∀ b ∈ ev, Cpx.le a b → a.re ^ 2 + a.im ^ 2 ≤ b.re ^ 2 + b.im ^ 2 := by
    intro a ha b hb hab
    have h1 := hpos a ha
    have h2 := hpos b hb
    have h3 : a.re ≤ b.re := by
      rcases hab with h | h
      · exact h.le
      · exact h.1.le
    simp only [h1.2, h2.2]
    nlinarith [h1.1, h2.1]
  have hmem : ∀ ix : List Nat, ∀ a ∈ ix.filterMap (fun i => ev[i]?), a ∈ ev := by
    intro ix a ha
    obtain ⟨i, -, hi⟩ := List.mem_filterMap.1 ha
    exact List.mem_of_getElem? hi
  obtain ⟨h1, h2⟩ := C23_order ev right left h
  exact ⟨h1.imp_of_mem (fun ha hb hab => hle _ (hmem _ _ ha) _ (hmem _ _ hb) hab), h2.imp_of_mem (fun ha hb hab => hle _ (hmem _ _ hb) _ (hmem _ _ ha) hab)⟩

/-- **C23 fails** for negative (and complex) eigenvalues: the order is by value, not by magnitude.  Whatever `argsort` returns for the eigenvalues -2 and 1, the "descending
magnitude" result starts with 1. -/
theorem C23_magnitude_violated : ∃ ev : List (Cpx Int), ∀ idx, IsArgsort ev idx → ¬ (sortEigenpairs ev ev ev idx false).1.Pairwise (fun a b => b.re ^ 2 + b.im ^ 2 ≤ a.re ^ 2 + a.im ^ 2) := by
  refine ⟨[⟨-2, 0⟩, ⟨1, 0⟩], ?_⟩
  intro idx h
  have hp := h.1
  have h01 : idx = [0, 1] ∨ idx = [1, 0] := by
    have hp : idx.Perm [0, 1] := hp
    have hl := hp.length_eq
    match idx, hl with
    | [a, b], _ =>
      have ha : a ∈ ([0, 1] : List Nat) := hp.mem_iff.1 (by simp)
      have hb : b ∈ ([0, 1] : List Nat) := hp.mem_iff.1 (by simp)
      have hne : a ≠ b := by
        have := hp.nodup_iff.2 (by decide)
        simpa using this
      simp at ha hb
      rcases ha with rfl | rfl <;> rcases hb with rfl | rfl <;> simp_all
  rcases h01 with rfl | rfl
  · decide
  · exfalso
    have := h.2
    simp [Cpx.le] at this

example : IsArgsort ([⟨3, 0⟩, ⟨1, 0⟩, ⟨2, 0⟩] : List (Cpx Int)) [1, 2, 0] :=
  ⟨by decide, by simp [Cpx.le]⟩

/-! ## C64 -/

/-- **C64.** Accepted iff `1 ≤ n ≤ n_rows - 1`; the returned indices are `n` distinct positions and the rows are the rows at these positions, for every random permutation. -/
theorem C64_random_subsample {W : Type} (data : List W) (n : Int) (perm : List Nat) (hp : perm.Perm (List.range data.length)) :
    (∀ rows idx, randomSubsample data n perm = some (rows, idx) → 1 ≤ n ∧ n ≤ data.length - 1 ∧ (idx.length : Int) = n ∧ idx.Nodup ∧
      (∀ i ∈ idx, i < data.length) ∧ rows.map some = idx.map (fun i => data[i]?)) ∧
    ((∃ r, randomSubsample data n perm = some r) ↔ 1 ≤ n ∧ n ≤ data.length - 1) := by
  have hlt : ∀ i ∈ perm.take n.toNat, i < data.length := fun i hi => List.mem_range.1 (hp.mem_iff.1 (List.mem_of_mem_take hi))
  constructor
  · intro rows idx h
    unfold randomSubsample at h
    split at h
    · simp at h
    · rename_i hn
      push Not at hn
      simp only [Option.some.injEq, Prod.mk.injEq] at h
      obtain ⟨rfl, rfl⟩ := h
      refine ⟨hn.1, by omega, ?_, ?_, hlt, ?_⟩
      · rw [List.length_take, hp.length_eq, List.length_range]; omega
      · exact (hp.nodup_iff.2 List.nodup_range).sublist (List.take_sublist _ _)
      · generalize perm.take n.toNat = l at hlt ⊢
        induction l with
        | nil => rfl
        | cons i l ih =>
          rw [List.filterMap_cons, List.getElem?_eq_getElem (hlt i (by simp))]
          simp [ih (fun j hj => hlt j (by simp [hj])), hlt i (by simp)]
  · unfold randomSubsample
    by_cases h : n < 1 ∨ (data.length : Int) - 1 < n
    · simp only [h, if_true]; simp; omega
    · simp only [h, if_false]; simp; omega

example : randomSubsample ["a", "b", "c"] 2 [2, 0, 1] = some (["c", "a"], [2, 0]) := by decide

/-! ## C70 -/

/-- **C70.** The element-wise products are the products with the diagonal matrix. -/
theorem C70_diag_products {m n α : Type} [Fintype m] [Fintype n] [DecidableEq m] [DecidableEq n] [CommSemiring α] (M : Matrix m n α) (d : n → α) (e : m → α) :
    matDotDiag M d = M * Matrix.diagonal d ∧ diagDotMat e M = Matrix.diagonal e * M := by
  constructor
  · ext i j; simp [matDotDiag, Matrix.mul_diagonal, mul_comm]
  · ext i j; simp [diagDotMat, Matrix.diagonal_mul, mul_comm]

/-! ## C71 -/

/-- **C71 (dense).** The result is symmetric for every square matrix, and equals the argument iff the argument is symmetric. -/
theorem C71_remove_noise {n α : Type} [Field α] [CharZero α] (M : Matrix n n α) :
    (removeNoise M).transpose = removeNoise M ∧ (removeNoise M = M ↔ M.transpose = M) := by
  have hs : (removeNoise M).transpose = removeNoise M := by ext i j; simp [removeNoise, add_comm]
  refine ⟨hs, ?_⟩
  constructor
  · intro h; rw [← h]; exact hs
  · intro h
    ext i j
    have : M j i = M i j := by
      conv => rhs; rw [← h]
      rfl
    simp only [removeNoise, Matrix.of_apply, this]
    ring

/-- **C71 (sparse).** If the stored structure and the stored values are symmetric, the result stores exactly the same elements, including stored zeros. -/
theorem C71_sparse_partial {n α : Type} [Field α] [CharZero α] [DecidableEq α] (M : n → n → Option α) (hs : ∀ i j, M i j = M j i) :
    removeNoiseSparse M = M := by
  funext i j
  simp only [removeNoiseSparse, ← hs i j]
  cases h : M i j with
  | none => rfl
  | some a =>
    by_cases ha : a = 0
    · simp [ha, sparseAdd, FVal.add]
    · have h2 : a + a ≠ 0 := by rw [← two_mul]; exact mul_ne_zero (by norm_num) ha
      simp only [Option.map_some, ha, if_false, sparseAdd, FVal.add, FVal.num.injEq, h2]
      congr 1
      field_simp; ring

/-- **C71 fails for sparse matrices** in which only one of two mirrored elements is stored: a value is halved, while a stored zero hides its mirrored value. -/
theorem C71_sparse_violated : ∃ M : Bool → Bool → Option Rat, removeNoiseSparse M true false = some 1 ∧ M true false = some 2 ∧ M false true = none :=
  ⟨fun i j => if i ∧ ¬ j then some 2 else none, by decide +kernel, by decide +kernel, by decide +kernel⟩

/-- **C71 fails for sparse matrices with stored zeros**: if one of two mirrored elements is a stored zero, the result is zero at both places, whatever the other value is; the mean is half of that value. -/
theorem C71_stored_zero_violated {n α : Type} [Field α] [CharZero α] [DecidableEq α] (M : n → n → Option α) (i j : n) (b : α) (h0 : M i j = some 0) (hb : M j i = some b) :
    removeNoiseSparse M i j = some 0 ∧ removeNoiseSparse M j i = some 0 := by
  by_cases h : b = 0
  · simp [removeNoiseSparse, h0, hb, h, sparseAdd, FVal.add]
  · simp [removeNoiseSparse, h0, hb, h, sparseAdd, FVal.add]

example : ∃ M : Bool → Bool → Option Rat, M true false = some 0 ∧ M false true = some 2 ∧ removeNoiseSparse M false true = some 0 :=
  ⟨fun i _ => if i then some 0 else some 2, by decide +kernel, by decide +kernel, by decide +kernel⟩

end Verif.Utils
