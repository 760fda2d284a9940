import Verif.Dmd.ControlProps
import Verif.Edmd.ClosedProps
import Mathlib.LinearAlgebra.Matrix.Charpoly.Basic
import Mathlib.Data.Matrix.ColumnRowPartitioned
/-!
# Property C196: models do not depend on the coordinates of the states, on the basis of the dictionary or on the arrangement of the data

The small specification is `Inverses T S`: `T` is a change of coordinates with inverse `S`.
-/

namespace Verif.Dmd

open Verif.Tsc Verif.Np Verif.Lin Verif.Dyn Matrix

set_option linter.unusedSectionVars false

/-- `T` is a change of coordinates and `S` the way back. -/
def Inverses {ι : Type} [Fintype ι] [DecidableEq ι] (T S : Matrix ι ι ℝ) : Prop := T * S = 1 ∧ S * T = 1

/-- One collection holds the snapshot pairs of another one `m` times, in any arrangement. -/
def SamePairs {ι : Type} (m : Nat) (c' c : List (Row Int (ι → ℝ))) : Prop :=
  (snapshotPairs c').Perm (List.replicate m (snapshotPairs c)).flatten

/-! ### Lemmas -/

section lemmas

variable {α α' β γ : Type} [Fintype α] [Fintype α'] [Fintype β] [Fintype γ] [DecidableEq β] [DecidableEq γ]

theorem Inverses.transpose {T S : Matrix β β ℝ} (h : Inverses T S) : Inverses Tᵀ Sᵀ :=
  ⟨by rw [← Matrix.transpose_mul, h.2, Matrix.transpose_one], by rw [← Matrix.transpose_mul, h.1, Matrix.transpose_one]⟩

theorem Inverses.symm {T S : Matrix β β ℝ} (h : Inverses T S) : Inverses S T := ⟨h.2, h.1⟩

/-- Least squares problems in other coordinates. -/
theorem lstsq_coords {X : Matrix α β ℝ} {Y : Matrix α γ ℝ} {P P' : Matrix β β ℝ} {Q Q' : Matrix γ γ ℝ} (hP : Inverses P P') (hQ : Inverses Q Q') (Z : Matrix β γ ℝ) :
    IsLstsqM (X * P) (Y * Q) (P' * Z * Q) ↔ IsLstsqM X Y Z := by
  rw [isLstsqM_iff, isLstsqM_iff, Matrix.transpose_mul]
  have e1 : Pᵀ * Xᵀ * (X * P) * (P' * Z * Q) = Pᵀ * (Xᵀ * X * Z) * Q := by
    have : X * P * (P' * Z * Q) = X * Z * Q := by
      calc X * P * (P' * Z * Q) = X * (P * P') * Z * Q := by simp only [Matrix.mul_assoc]
        _ = X * Z * Q := by rw [hP.1, Matrix.mul_one]
    rw [Matrix.mul_assoc (Pᵀ * Xᵀ), this]
    simp only [Matrix.mul_assoc]
  have e2 : Pᵀ * Xᵀ * (Y * Q) = Pᵀ * (Xᵀ * Y) * Q := by simp only [Matrix.mul_assoc]
  rw [e1, e2]
  constructor
  · intro h
    have h' := congrArg (fun M => P'ᵀ * M * Q') h
    have hPt : P'ᵀ * Pᵀ = 1 := by rw [← Matrix.transpose_mul, hP.1, Matrix.transpose_one]
    have key : ∀ M : Matrix β γ ℝ, P'ᵀ * (Pᵀ * M * Q) * Q' = M := by
      intro M
      calc P'ᵀ * (Pᵀ * M * Q) * Q' = (P'ᵀ * Pᵀ) * M * (Q * Q') := by simp only [Matrix.mul_assoc]
        _ = M := by rw [hPt, hQ.1, Matrix.one_mul, Matrix.mul_one]
    simpa only [key] using h'
  · intro h; rw [h]

/-- The order of the equations does not matter. -/
theorem lstsq_reindex (e : α' ≃ α) (X : Matrix α β ℝ) (Y : Matrix α γ ℝ) (Z : Matrix β γ ℝ) :
    IsLstsqM (X.submatrix e id) (Y.submatrix e id) Z ↔ IsLstsqM X Y Z := by
  rw [isLstsqM_iff, isLstsqM_iff, Matrix.transpose_submatrix]
  have h1 : (Xᵀ.submatrix id e) * (X.submatrix e id) = Xᵀ * X := by
    rw [Matrix.submatrix_mul_equiv, Matrix.submatrix_id_id]
  have h2 : (Xᵀ.submatrix id e) * (Y.submatrix e id) = Xᵀ * Y := by
    rw [Matrix.submatrix_mul_equiv, Matrix.submatrix_id_id]
  rw [h1, h2]

end lemmas

section pairs

variable {α β : Type} [Fintype α] [Fintype β] [DecidableEq α] [DecidableEq β]

theorem startM_map (ps : List ((α → ℝ) × (β → ℝ))) (P : Matrix α α ℝ) (Q : Matrix β β ℝ) :
    startM (ps.map (fun p => (P *ᵥ p.1, Q *ᵥ p.2))) = (startM ps * Pᵀ).submatrix (finCongr (List.length_map _)) id := by
  ext k i
  simp [startM, Matrix.mul_apply, Matrix.mulVec, dotProduct, mul_comm]

theorem endM_map (ps : List ((α → ℝ) × (β → ℝ))) (P : Matrix α α ℝ) (Q : Matrix β β ℝ) :
    endM (ps.map (fun p => (P *ᵥ p.1, Q *ᵥ p.2))) = (endM ps * Qᵀ).submatrix (finCongr (List.length_map _)) id := by
  ext k i
  simp [endM, Matrix.mul_apply, Matrix.mulVec, dotProduct, mul_comm]

theorem scaled_map {μ ν : Type} [Fintype μ] [DecidableEq μ] [Fintype ν] [DecidableEq ν] (e : ν ≃ μ) (v : μ → ℝ) (X : Matrix μ α ℝ) (P : Matrix α α ℝ) :
    scaled (fun i => v (e i)) ((X * P).submatrix e id) = (scaled v X * P).submatrix e id := by
  ext k i
  simp only [scaled, Matrix.diagonal_mul, Matrix.submatrix_apply, Matrix.mul_assoc, id]

end pairs

section maps

variable {τ V W : Type}

theorem npStep_map (f : V → W) (l : List V) (a b : Nat) : npStep (l.map f) a b = (npStep l a b).map f := by
  unfold npStep
  rw [List.zipIdx_map, List.filter_map, List.map_map, List.map_map]
  rfl

theorem npDelete_map (f : V → W) (l : List V) (idx : List Nat) : npDelete (l.map f) idx = (npDelete l idx).map f := by
  unfold npDelete
  rw [List.zipIdx_map, List.filter_map, List.map_map, List.map_map]
  rfl

variable [LinearOrder τ]

theorem mapVal_shiftRows (f : V → W) (c : List (Row τ V)) : shiftRows (mapVal f c) = ((shiftRows c).1.map f, (shiftRows c).2.map f) := by
  unfold shiftRows nTimeseries
  simp only [mapVal_vals, mapVal_ids', mapVal_nTimesteps]
  split
  · simp [List.map_dropLast]
  · split
    · split
      · simp only [npStep_map]
      · simp only [npDelete_map, List.length_map]
    · simp only [npDelete_map]

theorem mapVal_checkMin (f : V → W) (c : List (Row τ V)) (n : Int) : checkMinTimesteps (mapVal f c) n = checkMinTimesteps c n := by
  unfold checkMinTimesteps; rw [mapVal_nTimesteps]

theorem mapVal_shiftMatrices (f : V → W) (c : List (Row τ V)) :
    shiftMatrices (mapVal f c) = (shiftMatrices c).map (fun p => (p.1.map f, p.2.map f)) := by
  unfold shiftMatrices
  rw [mapVal_checkMin, mapVal_shiftRows]
  split <;> rfl

theorem mapVal_groupTail (f : V → W) (n : Nat) (c : List (Row τ V)) : groupTail n (mapVal f c) = mapVal f (groupTail n c) := by
  induction c with
  | nil => rfl
  | cons r c ih =>
    simp only [mapVal_cons, groupTail, mapVal_ids, ih]
    split <;> rfl

theorem mapVal_dropLastN (f : V → W) (c : List (Row τ V)) (n : Nat) : dropLastN (mapVal f c) n = (dropLastN c n).map (mapVal f) := by
  unfold dropLastN
  rw [mapVal_checkMin]
  split
  · rfl
  · rw [mapVal_groupTail, mapVal_keys, ← mapVal_build]
    congr 1
    unfold dropKeys mapVal
    rw [List.filter_map]
    rfl

end maps

theorem zip_map_pair {A B C D : Type} (f : A → C) (g : B → D) (L : List A) (R : List B) : (L.map f).zip (R.map g) = (L.zip R).map (fun p => (f p.1, g p.2)) := by
  rw [List.zip_map]; rfl

variable {ι κ : Type} [Fintype ι] [DecidableEq ι] [Fintype κ] [DecidableEq κ]

theorem conj_transpose {T S K : Matrix ι ι ℝ} : (T * K * S)ᵀ = Sᵀ * Kᵀ * Tᵀ := by
  simp only [Matrix.transpose_mul, Matrix.mul_assoc]

theorem isSystemMatrix_map (n : Nat) (hn : n ≠ 0) (ps : List ((ι → ℝ) × (ι → ℝ))) {T S : Matrix ι ι ℝ} (h : Inverses T S) (w : Option (Fin ps.length → ℝ))
    (w' : Option (Fin (ps.map (fun p => (T *ᵥ p.1, T *ᵥ p.2))).length → ℝ)) (hw : ∀ v, w = some v → ∀ k, 0 ≤ v k)
    (he : w' = w.map (fun v i => v (finCongr (List.length_map _) i))) (K : Matrix ι ι ℝ) :
    IsSystemMatrix n (ps.map (fun p => (T *ᵥ p.1, T *ᵥ p.2))) w' (T * K * S) ↔ IsSystemMatrix n ps w K := by
  rw [isSystemMatrix_iff n hn ps w hw, isSystemMatrix_iff n hn _ w' (by
    intro v hv k
    subst he
    cases w with
    | none => cases hv
    | some v0 => cases hv; exact hw v0 rfl _)]
  have hg : w'.getD (fun _ => 1) = fun i => (w.getD (fun _ => 1)) (finCongr (List.length_map _) i) := by
    subst he
    cases w <;> rfl
  rw [hg, startM_map, endM_map, scaled_map, scaled_map, lstsq_reindex, conj_transpose, lstsq_coords h.transpose h.transpose]

theorem hcat_conj (A : Matrix ι ι ℝ) (B : Matrix ι κ ℝ) (T T' : Matrix ι ι ℝ) (S' : Matrix κ κ ℝ) :
    hcat (T * A * T') (T * B * S') = T * hcat A B * Matrix.fromBlocks T' 0 0 S' := by
  have e1 : ∀ (A : Matrix ι ι ℝ) (B : Matrix ι κ ℝ), hcat A B = Matrix.fromCols A B := by
    intro A B; ext i j; cases j <;> rfl
  rw [e1, e1, Matrix.mul_fromCols, Matrix.fromCols_mul_fromBlocks]
  simp

theorem isControlMatrices_lstsq (n : Nat) (hn : n ≠ 0) (ps : List ((ι ⊕ κ → ℝ) × (ι → ℝ))) (A : Matrix ι ι ℝ) (B : Matrix ι κ ℝ) :
    IsControlMatrices n ps A B ↔ IsLstsqM (startM ps) (endM ps) (hcat A B)ᵀ := by
  have ha : (1 / (n : ℝ)) ≠ 0 := by simp [hn]
  rw [← lstsq_normal ha]
  unfold IsControlMatrices
  have e1 : ((1 / (n : ℝ)) • ((startM ps)ᵀ * startM ps))ᵀ = (1 / (n : ℝ)) • ((startM ps)ᵀ * startM ps) := by
    rw [Matrix.transpose_smul, Matrix.transpose_mul, Matrix.transpose_transpose]
  have e2 : ((1 / (n : ℝ)) • ((endM ps)ᵀ * startM ps))ᵀ = (1 / (n : ℝ)) • ((startM ps)ᵀ * endM ps) := by
    rw [Matrix.transpose_smul, Matrix.transpose_mul, Matrix.transpose_transpose]
  rw [e1, e2]
  constructor
  · rintro ⟨Mu, h, rfl, rfl⟩
    have : (hcat (Matrix.of (fun i j => Mu (Sum.inl j) i)) (Matrix.of (fun i j => Mu (Sum.inr j) i)))ᵀ = Mu := by
      ext i j; cases i <;> rfl
    rw [this]; exact h
  · intro h
    exact ⟨_, h, by ext i j; rfl, by ext i j; rfl⟩

theorem inverses_blocks {T T' : Matrix ι ι ℝ} {S S' : Matrix κ κ ℝ} (hT : Inverses T T') (hS : Inverses S S') :
    Inverses (Matrix.fromBlocks T 0 0 S) (Matrix.fromBlocks T' 0 0 S') := by
  constructor
  · rw [Matrix.fromBlocks_multiply]; simp [hT.1, hS.1]
  · rw [Matrix.fromBlocks_multiply]; simp [hT.2, hS.2]

theorem blocks_mulVec (T : Matrix ι ι ℝ) (S : Matrix κ κ ℝ) (x : ι → ℝ) (u : κ → ℝ) :
    Sum.elim (T *ᵥ x) (S *ᵥ u) = Matrix.fromBlocks T 0 0 S *ᵥ Sum.elim x u := by
  rw [Matrix.fromBlocks_mulVec]
  simp

theorem conj_pow {R : Type} [CommRing R] {T S K : Matrix ι ι R} (h : S * T = 1) (h' : T * S = 1) (n : Nat) : (T * K * S) ^ n = T * K ^ n * S := by
  induction n with
  | zero => simp [h']
  | succ n ih =>
    rw [pow_succ, ih, pow_succ]
    calc T * K ^ n * S * (T * K * S) = T * K ^ n * (S * T) * K * S := by simp only [Matrix.mul_assoc]
      _ = T * (K ^ n * K) * S := by rw [h, Matrix.mul_one]; simp only [Matrix.mul_assoc]

theorem totalError_ones {α : Type} [Fintype α] (ps : List ((α → ℝ) × (ι → ℝ))) (K : Matrix ι α ℝ) :
    totalError (List.replicate ps.length 1) ps K = (ps.map (fun p => stepError K p.1 p.2)).sum := by
  unfold totalError
  induction ps with
  | nil => rfl
  | cons p ps ih => simp only [List.length_cons, List.replicate_succ, List.zip_cons_cons, List.map_cons, List.sum_cons, ih, one_mul]

theorem sum_replicate_flatten {A : Type} (f : A → ℝ) (m : Nat) (l : List A) : ((List.replicate m l).flatten.map f).sum = m * (l.map f).sum := by
  induction m with
  | zero => simp
  | succ m ih => simp only [List.replicate_succ, List.flatten_cons, List.map_append, List.sum_append, ih]; push_cast; ring

/-! ### Property theorems -/

/-- **C196 (coordinates).** Fitting a DMD model to data in other coordinates `T x` gives exactly the models of the original data written in these coordinates, also
with (non-negative) sample weights. -/
theorem C196_coordinates {k : TimeKind} {c : List (Row Int (ι → ℝ))} (hc : c ≠ []) {T S : Matrix ι ι ℝ} (h : Inverses T S) (w : Option (List ℝ))
    (hw : ∀ v, w = some v → ∀ a ∈ v, 0 ≤ a) (K : Matrix ι ι ℝ) : Fits k (mapVal (T *ᵥ ·) c) w (T * K * S) ↔ Fits k c w K := by
  have hn : c.length ≠ 0 := by simpa using hc
  unfold Fits
  rw [mapVal_isConstDeltaTime, mapVal_shiftMatrices, mapVal_length]
  refine and_congr_right (fun _ => ?_)
  cases hs : shiftMatrices c with
  | error e => simp [Except.map]
  | ok p =>
    obtain ⟨L, R⟩ := p
    have e : ∀ P : List (ι → ℝ) → List (ι → ℝ) → Prop, (∃ L' R', (Except.ok (L, R) : Except TscErr _) = .ok (L', R') ∧ P L' R') ↔ P L R := by
      intro P
      constructor
      · rintro ⟨L', R', h, h'⟩; cases h; exact h'
      · intro h; exact ⟨L, R, rfl, h⟩
    have e' : ∀ P : List (ι → ℝ) → List (ι → ℝ) → Prop,
        (∃ L' R', ((Except.ok (L, R) : Except TscErr _).map (fun p => (p.1.map (T *ᵥ ·), p.2.map (T *ᵥ ·)))) = .ok (L', R') ∧ P L' R') ↔
          P (L.map (T *ᵥ ·)) (R.map (T *ᵥ ·)) := by
      intro P
      constructor
      · rintro ⟨L', R', h, h'⟩; cases h; exact h'
      · intro h; exact ⟨_, _, rfl, h⟩
    cases w with
    | none =>
      simp only
      rw [e (fun L R => IsSystemMatrix c.length (L.zip R) none K), e' (fun L R => IsSystemMatrix c.length (L.zip R) none (T * K * S)), zip_map_pair]
      exact isSystemMatrix_map c.length hn (L.zip R) h none none (fun v hv => nomatch hv) rfl K
    | some v =>
      simp only
      rw [e (fun L R => v.length = (L.zip R).length ∧ IsSystemMatrix c.length (L.zip R) (some (fun i => v.getD i 0)) K),
        e' (fun L R => v.length = (L.zip R).length ∧ IsSystemMatrix c.length (L.zip R) (some (fun i => v.getD i 0)) (T * K * S)), zip_map_pair]
      refine and_congr (by rw [List.length_map]) ?_
      refine isSystemMatrix_map c.length hn (L.zip R) h (some (fun i => v.getD i 0)) (some (fun i => v.getD i 0)) ?_ rfl K
      intro v' hv' i
      cases hv'
      simp only [List.getD_eq_getElem?_getD]
      cases hg : v[(i : Nat)]? with
      | none => simp
      | some a => exact hw v rfl a (List.mem_of_getElem? hg)

/-- **C196 (predictions).** The prediction of the model in other coordinates is the prediction of the original model in other coordinates, with the same time values,
IDs and errors. -/
theorem C196_predict {T S : Matrix ι ι ℝ} (h : Inverses T S) (K : Matrix ι ι ℝ) (dt : Int) (X : List (Row Int (ι → ℝ))) (times : List Int) :
    predictMatrix (T * K * S) dt (mapVal (T *ᵥ ·) X) times = (predictMatrix K dt X times).map (mapVal (T *ᵥ ·)) := by
  unfold predictMatrix
  rw [← evolveFrame_map, evolveFrame_mapIc]
  congr 1
  funext ics norm
  simp only [flowmapMatrix, List.map_map, Function.comp_def]
  refine List.map_congr_left (fun x _ => List.map_congr_left (fun t _ => ?_))
  rw [conj_pow h.2 h.1, Matrix.mulVec_mulVec, Matrix.mul_assoc, h.2, Matrix.mul_one, Matrix.mulVec_mulVec]

/-- **C196 (spectrum).** The eigenvalues (with multiplicities) do not depend on the coordinates, and the eigenvectors are transformed like the states. -/
theorem C196_spectrum {T S : Matrix ι ι ℝ} (h : Inverses T S) (K : Matrix ι ι ℝ) :
    (T * K * S).charpoly = K.charpoly ∧ ∀ (ev : ℝ) (v : ι → ℝ), (T * K * S) *ᵥ (T *ᵥ v) = ev • (T *ᵥ v) ↔ K *ᵥ v = ev • v := by
  constructor
  · have := Matrix.charpoly_units_conj (⟨T, S, h.1, h.2⟩ : (Matrix ι ι ℝ)ˣ) K
    rw [← Matrix.coe_units_inv] at this
    exact this
  · intro ev v
    have e1 : (T * K * S) *ᵥ (T *ᵥ v) = T *ᵥ (K *ᵥ v) := by
      rw [Matrix.mulVec_mulVec, Matrix.mul_assoc, h.2, Matrix.mul_one, Matrix.mulVec_mulVec]
    rw [e1, ← Matrix.mulVec_smul]
    constructor
    · intro hv
      have := congrArg (S *ᵥ ·) hv
      simpa only [Matrix.mulVec_mulVec, ← Matrix.mul_assoc, h.2, Matrix.one_mul, Matrix.one_mulVec] using this
    · intro hv; rw [hv]

/-- **C196 (control).** The same for DMD with control, with separate coordinates `T x` and `S u` for the states and the control inputs. -/
theorem C196_control {k : TimeKind} {c : List (Row Int (ι → ℝ))} {u : List (Row Int (κ → ℝ))} (hc : c ≠ []) {T T' : Matrix ι ι ℝ} {S S' : Matrix κ κ ℝ}
    (hT : Inverses T T') (hS : Inverses S S') (A : Matrix ι ι ℝ) (B : Matrix ι κ ℝ) :
    FitsControl k (mapVal (T *ᵥ ·) c) (mapVal (S *ᵥ ·) u) (T * A * T') (T * B * S') ↔ FitsControl k c u A B := by
  have hn : c.length ≠ 0 := by simpa using hc
  unfold FitsControl
  rw [mapVal_isConstDeltaTime, mapVal_shiftMatrices, mapVal_length]
  have hm : controlIndexMatches (mapVal (T *ᵥ ·) c) (mapVal (S *ᵥ ·) u) ↔ controlIndexMatches c u := by
    unfold controlIndexMatches
    rw [mapVal_dropLastN, mapVal_keys]
    cases dropLastN c 1 with
    | error e => simp [Except.map]
    | ok d =>
      constructor
      · rintro ⟨d', h, h'⟩; cases h; exact ⟨d, rfl, by rw [← h', mapVal_keys]⟩
      · rintro ⟨d', h, h'⟩; cases h; exact ⟨_, rfl, by rw [← h', mapVal_keys]⟩
  rw [hm]
  refine and_congr_right (fun _ => and_congr_right (fun _ => ?_))
  have key : ∀ L R : List (ι → ℝ),
      IsControlMatrices c.length ((((L.map (T *ᵥ ·)).zip ((mapVal (S *ᵥ ·) u).map (·.val))).map (fun p => Sum.elim p.1 p.2)).zip (R.map (T *ᵥ ·))) (T * A * T') (T * B * S') ↔
      IsControlMatrices c.length (((L.zip (u.map (·.val))).map (fun p => Sum.elim p.1 p.2)).zip R) A B := by
    intro L R
    have e : (((L.map (T *ᵥ ·)).zip ((mapVal (S *ᵥ ·) u).map (·.val))).map (fun p => (Sum.elim p.1 p.2 : ι ⊕ κ → ℝ))).zip (R.map (T *ᵥ ·)) =
        (((L.zip (u.map (·.val))).map (fun p => (Sum.elim p.1 p.2 : ι ⊕ κ → ℝ))).zip R).map (fun p => (Matrix.fromBlocks T 0 0 S *ᵥ p.1, T *ᵥ p.2)) := by
      have e1 : ((L.map (T *ᵥ ·)).zip ((mapVal (S *ᵥ ·) u).map (·.val))).map (fun p => (Sum.elim p.1 p.2 : ι ⊕ κ → ℝ)) =
          ((L.zip (u.map (·.val))).map (fun p => (Sum.elim p.1 p.2 : ι ⊕ κ → ℝ))).map (Matrix.fromBlocks T 0 0 S *ᵥ ·) := by
        rw [mapVal_vals, zip_map_pair, List.map_map, List.map_map]
        refine List.map_congr_left (fun p _ => ?_)
        exact blocks_mulVec T S p.1 p.2
      rw [e1, zip_map_pair]
    rw [e, isControlMatrices_lstsq _ hn, isControlMatrices_lstsq _ hn, startM_map, endM_map, lstsq_reindex, hcat_conj]
    have : (T * hcat A B * Matrix.fromBlocks T' 0 0 S')ᵀ = (Matrix.fromBlocks T' 0 0 S')ᵀ * (hcat A B)ᵀ * Tᵀ := by
      simp only [Matrix.transpose_mul, Matrix.mul_assoc]
    rw [this, lstsq_coords (inverses_blocks hT hS).transpose hT.transpose]
  cases hs : shiftMatrices c with
  | error e => simp [Except.map]
  | ok p =>
    obtain ⟨L, R⟩ := p
    constructor
    · rintro ⟨L', R', h, h'⟩; cases h; exact ⟨L, R, rfl, (key L R).1 h'⟩
    · rintro ⟨L', R', h, h'⟩; cases h; exact ⟨_, _, rfl, (key L R).2 h'⟩

/-- **C196 (arrangement).** Only the set of snapshot pairs matters: reordering and renumbering the series, shifting their time values, or giving all the data `m` times
does not change which models are fitted.  (For IDs in ascending order or series of equal lengths; `C30_order_violated` shows that otherwise the order matters.) -/
theorem C196_arrangement_partial {k : TimeKind} {c c' : List (Row Int (ι → ℝ))} (hc : c ≠ []) (hc' : c' ≠ []) (hv : Valid c) (hv' : Valid c')
    (hs : IdsAscending c ∨ EqualLengths c) (hs' : IdsAscending c' ∨ EqualLengths c') (h2 : ∀ i, HasId c i → 2 ≤ (series c i).length)
    (h2' : ∀ i, HasId c' i → 2 ≤ (series c' i).length) (hk : isConstDeltaTime k c = true) (hk' : isConstDeltaTime k c' = true) {m : Nat} (hm : m ≠ 0)
    (hp : SamePairs m c' c) (K : Matrix ι ι ℝ) : Fits k c' none K ↔ Fits k c none K := by
  rw [C30_least_squares_partial hc hv hs h2 hk none (fun v hv => nomatch hv), C30_least_squares_partial hc' hv' hs' h2' hk' none (fun v hv => nomatch hv)]
  have e : ∀ K : Matrix ι ι ℝ, totalError (weightsOf none (snapshotPairs c').length) (snapshotPairs c') K =
      m * totalError (weightsOf none (snapshotPairs c).length) (snapshotPairs c) K := by
    intro K
    simp only [weightsOf, Option.getD_none, totalError_ones]
    rw [← sum_replicate_flatten]
    exact (hp.map _).sum_eq
  have hpos : (0 : ℝ) < m := by exact_mod_cast Nat.pos_of_ne_zero hm
  simp only [e]
  exact forall_congr' (fun K' => mul_le_mul_iff_right₀ hpos)

/-- A shear of the plane and its inverse. -/
theorem exShear : Inverses (!![1, 1; 0, 1] : Matrix (Fin 2) (Fin 2) ℝ) !![1, -1; 0, 1] := by
  constructor <;> (ext i j; fin_cases i <;> fin_cases j <;> simp [Matrix.mul_apply, Fin.sum_univ_two])

/-- Two series in the plane. -/
def exPlane : List (Row Int (Fin 2 → ℝ)) := [⟨0, 0, ![1, 0]⟩, ⟨0, 1, ![2, 1]⟩, ⟨0, 2, ![0, 3]⟩, ⟨4, 5, ![1, 1]⟩, ⟨4, 6, ![2, 5]⟩]

/-- The same series in the other order, with other IDs and shifted time values. -/
def exPlane' : List (Row Int (Fin 2 → ℝ)) := [⟨1, 0, ![1, 1]⟩, ⟨1, 1, ![2, 5]⟩, ⟨7, 3, ![1, 0]⟩, ⟨7, 4, ![2, 1]⟩, ⟨7, 5, ![0, 3]⟩]

theorem exPlane_two : ∀ i, HasId exPlane i → 2 ≤ (series exPlane i).length := by
  rintro i ⟨r, hr, rfl⟩
  simp only [exPlane, List.mem_cons, List.not_mem_nil, or_false] at hr
  rcases hr with rfl | rfl | rfl | rfl | rfl <;> decide

theorem exPlane'_two : ∀ i, HasId exPlane' i → 2 ≤ (series exPlane' i).length := by
  rintro i ⟨r, hr, rfl⟩
  simp only [exPlane', List.mem_cons, List.not_mem_nil, or_false] at hr
  rcases hr with rfl | rfl | rfl | rfl | rfl <;> decide

example : ∃ K, Fits .int exPlane none K ∧ Fits .int (mapVal (!![1, 1; 0, 1] *ᵥ ·) exPlane) none (!![1, 1; 0, 1] * K * !![1, -1; 0, 1]) ∧ Fits .int exPlane' none K := by
  obtain ⟨K, h⟩ := C30_exists (k := .int) (c := exPlane) (by simp [exPlane]) exPlane_two (by decide)
  refine ⟨K, h, (C196_coordinates (by simp [exPlane]) exShear none (fun v hv => nomatch hv) K).2 h, ?_⟩
  refine (C196_arrangement_partial (m := 1) (c := exPlane) (c' := exPlane') (by simp [exPlane]) (by simp [exPlane']) ?_ ?_ (Or.inl (by unfold IdsAscending; decide))
    (Or.inl (by unfold IdsAscending; decide)) exPlane_two exPlane'_two (by decide) (by decide) one_ne_zero ?_ K).2 h
  · exact (valid_iff _).2 ⟨by decide +kernel, by simp [Before, exPlane]⟩
  · exact (valid_iff _).2 ⟨by decide +kernel, by simp [Before, exPlane']⟩
  · have h1 : snapshotPairs exPlane = [(![1, 0], ![2, 1]), (![2, 1], ![0, 3])] ++ [(![1, 1], ![2, 5])] := rfl
    have h2 : snapshotPairs exPlane' = [(![1, 1], ![2, 5])] ++ [(![1, 0], ![2, 1]), (![2, 1], ![0, 3])] := rfl
    unfold SamePairs
    rw [h1, h2]
    simpa using List.perm_append_comm (l₁ := [((![1, 1] : Fin 2 → ℝ), (![2, 5] : Fin 2 → ℝ))]) (l₂ := [(![1, 0], ![2, 1]), (![2, 1], ![0, 3])])

example : ∃ A B, FitsControl .int exCX exCU A B ∧
    FitsControl .int (mapVal ((!![2] : Matrix (Fin 1) (Fin 1) ℝ) *ᵥ ·) exCX) (mapVal ((!![5] : Matrix (Fin 1) (Fin 1) ℝ) *ᵥ ·) exCU) (!![2] * A * !![1 / 2]) (!![2] * B * !![1 / 5]) := by
  obtain ⟨A, B, h⟩ : ∃ A B, FitsControl .int exCX exCU A B := by
    obtain ⟨Z, hZ⟩ := exists_normal (startM ((([![1], ![2]].zip (exCU.map (·.val))).map (fun p => (Sum.elim p.1 p.2 : Fin 1 ⊕ Fin 1 → ℝ))).zip [![2], ![7]]))
      (endM ((([![1], ![2]].zip (exCU.map (·.val))).map (fun p => (Sum.elim p.1 p.2 : Fin 1 ⊕ Fin 1 → ℝ))).zip [(![2] : Fin 1 → ℝ), ![7]]))
    refine ⟨Matrix.of (fun i j => Z (Sum.inl j) i), Matrix.of (fun i j => Z (Sum.inr j) i), by decide, ⟨[⟨4, 0, ![1]⟩, ⟨4, 1, ![2]⟩], rfl, rfl⟩, [![1], ![2]], [![2], ![7]], rfl, ?_⟩
    have e : (hcat (Matrix.of (fun i j => Z (Sum.inl j) i)) (Matrix.of (fun i j => Z (Sum.inr j) i)))ᵀ = Z := by ext i j; cases i <;> rfl
    rw [isControlMatrices_lstsq _ (by simp [exCX]), e]
    exact (isLstsqM_iff _ _ _).2 hZ
  refine ⟨A, B, h, (C196_control (by simp [exCX]) ⟨?_, ?_⟩ ⟨?_, ?_⟩ A B).2 h⟩ <;>
    (ext i j; fin_cases i; fin_cases j; simp [Matrix.mul_apply])

end Verif.Dmd

namespace Verif.Edmd

open Verif.Tsc Verif.Np Verif.Lin Verif.Dyn Verif.Dmd Matrix

variable {ι δ : Type} [Fintype ι] [Fintype δ] [DecidableEq δ]

set_option linter.unusedSectionVars false

/-- **C196 (dictionary fit).** Replacing the dictionary `g` by another basis `T g` of the same span gives the same models, written in the other basis. -/
theorem C196_dictionary_fit {k : TimeKind} {c : List (Row Int (ι → ℝ))} (hc : c ≠ []) {T S : Matrix δ δ ℝ} (h : Inverses T S) (g : (ι → ℝ) → (δ → ℝ))
    (K : Matrix δ δ ℝ) (B : Matrix δ ι ℝ) : FitsEdmd k (fun x => T *ᵥ g x) c (T * K * S) (Sᵀ * B) ↔ FitsEdmd k g c K B := by
  classical
  unfold FitsEdmd
  have e : mapVal (fun x => T *ᵥ g x) c = mapVal (T *ᵥ ·) (mapVal g c) := by rw [mapVal_mapVal]; rfl
  rw [e, C196_coordinates (mapVal_ne_nil.2 hc) h none (fun v hv => nomatch hv)]
  refine and_congr_right (fun _ => ?_)
  have e2 : (Matrix.of (fun (r : Fin c.length) => T *ᵥ g c[r].val)) = Matrix.of (fun (r : Fin c.length) => g c[r].val) * Tᵀ := by
    ext r i
    simp [Matrix.mul_apply, Matrix.mulVec, dotProduct, mul_comm]
  rw [e2]
  have := lstsq_coords (X := Matrix.of (fun (r : Fin c.length) => g c[r].val)) (Y := Matrix.of (fun (r : Fin c.length) => c[r].val)) h.transpose
    (Q := (1 : Matrix ι ι ℝ)) (Q' := 1) ⟨by simp, by simp⟩ B
  simpa using this

/-- **C196 (dictionary predictions).** The predictions depend only on the span of the dictionary: the two models predict exactly the same. -/
theorem C196_dictionary_predict {T S : Matrix δ δ ℝ} (h : Inverses T S) (g : (ι → ℝ) → (δ → ℝ)) (K : Matrix δ δ ℝ) (B : Matrix δ ι ℝ) (dt : Int)
    (X : List (Row Int (ι → ℝ))) (times : List Int) :
    edmdPredict (fun x => T *ᵥ g x) (T * K * S) (Sᵀ * B) dt X times = edmdPredict g K B dt X times := by
  unfold edmdPredict
  have e : mapVal (fun x => T *ᵥ g x) X = mapVal (T *ᵥ ·) (mapVal g X) := by rw [mapVal_mapVal]; rfl
  rw [e, C196_predict h]
  cases predictMatrix K dt (mapVal g X) times with
  | error e => rfl
  | ok d =>
    simp only [Except.map, mapVal_mapVal, Except.ok.injEq]
    congr 1
    funext z
    simp only [Function.comp]
    rw [← Matrix.vecMul_vecMul, Matrix.vecMul_transpose, Matrix.mulVec_mulVec, h.2, Matrix.one_mulVec]

end Verif.Edmd
