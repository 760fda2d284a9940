import Verif.Dyn.LinearProps
import Verif.Tsc.MapVal
/-!
# C245: superposition

Predictions of linear models are linear in the initial conditions and the control input.
-/

namespace Verif.Dyn

open Verif.Tsc Verif.Np Matrix

variable {ι κ : Type} [Fintype ι] [DecidableEq ι] [Fintype κ] {R : Type} [CommRing R]

/-! ## Specification -/

/-- The collection with the values `a v + b w`, where `v` and `w` are the values of the two collections in the same row. -/
def combine {ν : Type} (a b : R) (c c' : List (Row Int (ν → R))) : List (Row Int (ν → R)) :=
  List.zipWith (fun r s => ⟨r.id, r.time, a • r.val + b • s.val⟩) c c'

/-- Both collections have the same IDs and time values in the same rows. -/
def SameIndex {V W : Type} (c : List (Row Int V)) (c' : List (Row Int W)) : Prop := c.map (·.key) = c'.map (·.key)

/-- The third prediction is the combination of the first two, and is refused for the same reason as each of them. -/
def Superposes {E ν : Type} (a b : R) (p p' q : Except E (List (Row Int (ν → R)))) : Prop :=
  (∃ d d', p = .ok d ∧ p' = .ok d' ∧ SameIndex d d' ∧ q = .ok (combine a b d d')) ∨ ∃ e, p = .error e ∧ p' = .error e ∧ q = .error e

/-! ## Helper lemmas -/

/-- The combination of two values. -/
def comb {ν : Type} (a b : R) (v : (ν → R) × (ν → R)) : ν → R := a • v.1 + b • v.2

theorem rows_joint {V W : Type} (y : List (Row Int V)) (z : List (Row Int W)) (h : SameIndex y z) : ∃ r : List (Row Int (V × W)), y = mapVal (·.1) r ∧ z = mapVal (·.2) r := by
  unfold SameIndex at h
  induction y generalizing z with
  | nil =>
    cases z with
    | nil => exact ⟨[], rfl, rfl⟩
    | cons => simp at h
  | cons a y ih =>
    cases z with
    | nil => simp at h
    | cons b z =>
      simp only [List.map_cons, List.cons.injEq] at h
      obtain ⟨r, rfl, rfl⟩ := ih z h.2
      refine ⟨⟨a.id, a.time, (a.val, b.val)⟩ :: r, rfl, ?_⟩
      obtain ⟨i, t, v⟩ := b
      have h1 := h.1
      simp only [Row.key, Key.mk.injEq] at h1
      simp only [mapVal_cons, h1.1, h1.2]

theorem combine_joint {ν : Type} (a b : R) (r : List (Row Int ((ν → R) × (ν → R)))) : combine a b (mapVal (·.1) r) (mapVal (·.2) r) = mapVal (comb a b) r := by
  induction r with
  | nil => rfl
  | cons x r ih => simp only [mapVal_cons, combine, List.zipWith_cons_cons] at ih ⊢; rw [ih]; rfl

theorem superposes_joint {E ν : Type} (a b : R) (e : Except E (List (Row Int ((ν → R) × (ν → R))))) :
    Superposes a b (e.map (mapVal (·.1))) (e.map (mapVal (·.2))) (e.map (mapVal (comb a b))) := by
  cases e with
  | error e => exact Or.inr ⟨e, rfl, rfl, rfl⟩
  | ok r => exact Or.inl ⟨_, _, rfl, rfl, by unfold SameIndex; rw [mapVal_keys, mapVal_keys], by rw [combine_joint]; rfl⟩

/-- Two copies of the system. -/
def twice (A : Matrix ι ι R) (v : (ι → R) × (ι → R)) : (ι → R) × (ι → R) := (A *ᵥ v.1, A *ᵥ v.2)

omit [DecidableEq ι] in
theorem twice_comb (A : Matrix ι ι R) (a b : R) (v : (ι → R) × (ι → R)) : A *ᵥ comb a b v = comb a b (twice A v) := by
  simp only [comb, twice, mulVec_add, mulVec_smul]

theorem predictMatrix_joint (A : Matrix ι ι R) (dt : Int) (times : List Int) (r : List (Row Int ((ι → R) × (ι → R)))) {f : (ι → R) × (ι → R) → (ι → R)}
    (hf : ∀ (M : Matrix ι ι R) v, M *ᵥ f v = f (twice M v)) :
    predictMatrix A dt (mapVal f r) times = (evolveFrame r times (fun ics norm => ics.map (fun x => norm.map (fun t => twice (A ^ stepCount dt t) x)))).map (mapVal f) := by
  unfold predictMatrix
  rw [← evolveFrame_map, evolveFrame_mapIc]
  congr 1
  funext ics norm
  simp only [flowmapMatrix, List.map_map, Function.comp_def, hf]

/-- The loop with control for two copies of the system. -/
def twiceLoop (A : Matrix ι ι R) (B : Matrix ι κ R) : (ι → R) × (ι → R) → List Int → List ((κ → R) × (κ → R)) → List ((ι → R) × (ι → R))
  | x, _ :: ds, u :: us => x :: twiceLoop A B (A *ᵥ x.1 + B *ᵥ u.1, A *ᵥ x.2 + B *ᵥ u.2) ds us
  | x, _, _ => [x]

omit [DecidableEq ι] in
theorem twiceLoop_map (A : Matrix ι ι R) (B : Matrix ι κ R) {f : (ι → R) × (ι → R) → (ι → R)} {g : (κ → R) × (κ → R) → (κ → R)}
    (hfg : ∀ x u, A *ᵥ f x + B *ᵥ g u = f (A *ᵥ x.1 + B *ᵥ u.1, A *ᵥ x.2 + B *ᵥ u.2)) (x : (ι → R) × (ι → R)) (ds : List Int) (us : List ((κ → R) × (κ → R))) :
    controlledLoop A B (f x) ds (us.map g) = (twiceLoop A B x ds us).map f := by
  induction ds generalizing x us with
  | nil => cases us <;> rfl
  | cons d ds ih =>
    cases us with
    | nil => rfl
    | cons u us =>
      simp only [List.map_cons, controlledLoop, twiceLoop, hfg, ih]

theorem blocks_mapped {α β : Type} (g : α → β) (k n : Nat) (l : List α) : blocks k n (l.map g) = (blocks k n l).map (List.map g) := by
  induction n generalizing l with
  | zero => rfl
  | succ n ih => simp only [blocks, List.map_cons, ← List.map_take, ← List.map_drop, ih]

theorem zipWith_mapped {α β γ δ ε ζ : Type} (f : α → β) (g : γ → δ) (h : ε → ζ) (F : β → List δ → List ζ) (G : α → List γ → List ε) (hF : ∀ x u, F (f x) (u.map g) = (G x u).map h)
    (xs : List α) (us : List (List γ)) : List.zipWith F (xs.map f) (us.map (List.map g)) = (List.zipWith G xs us).map (List.map h) := by
  induction xs generalizing us with
  | nil => rfl
  | cons x xs ih =>
    cases us with
    | nil => rfl
    | cons u us => simp only [List.map_cons, List.zipWith_cons_cons, hF, ih]

theorem sameTimes_mapped {V W : Type} (f : V → W) (c : List (Row Int V)) : isSameTimeValues (mapVal f c) = isSameTimeValues c := by
  unfold isSameTimeValues nTimeseries
  simp only [mapVal_nTimesteps, mapVal_timeValues, mapVal_ids']

omit [DecidableEq ι] in
theorem predictControlled_joint (A : Matrix ι ι R) (B : Matrix ι κ R) (times : List Int) (r : List (Row Int ((ι → R) × (ι → R)))) (s : List (Row Int ((κ → R) × (κ → R))))
    {f : (ι → R) × (ι → R) → (ι → R)} {g : (κ → R) × (κ → R) → (κ → R)} (hfg : ∀ x u, A *ᵥ f x + B *ᵥ g u = f (A *ᵥ x.1 + B *ᵥ u.1, A *ᵥ x.2 + B *ᵥ u.2)) :
    predictControlled A B (mapVal f r) (mapVal g s) times =
      (match validateControl r s with
        | .error e => .error e
        | .ok _ => if s.length / (ids s).length + 1 ≠ times.length then .error .nControl
          else evolveFrame r times (fun ics norm => List.zipWith (fun x u => twiceLoop A B x (diffs norm) u) ics
            (blocks (s.length / (ids s).length) (ids s).length (s.map (·.val)))) : Except PredErr _).map (mapVal f) := by
  have hv : validateControl (mapVal f r) (mapVal g s) = validateControl r s := by
    unfold validateControl
    rw [mapVal_ids, mapVal_times, mapVal_ids', mapVal_timeValues, sameTimes_mapped]
  unfold predictControlled
  rw [hv]
  cases validateControl r s with
  | error e => rfl
  | ok _ =>
    simp only [mapVal_ids', mapVal_length]
    split
    · rfl
    · rw [← evolveFrame_map, evolveFrame_mapIc]
      congr 1
      funext ics norm
      unfold flowmapMatrixControlled
      rw [mapVal_vals, blocks_mapped]
      exact zipWith_mapped f g f _ _ (fun x u => twiceLoop_map A B hfg x _ u) ics _

theorem combine_zero_right {ν : Type} (X : List (Row Int (ν → R))) : combine 1 1 X (mapVal (fun _ => 0) X) = X := by
  induction X with
  | nil => rfl
  | cons x X ih => simp only [mapVal_cons, combine, List.zipWith_cons_cons, add_zero, one_smul] at ih ⊢; rw [ih]

theorem combine_zero_left {ν : Type} (X : List (Row Int (ν → R))) : combine 1 1 (mapVal (fun _ => 0) X) X = X := by
  induction X with
  | nil => rfl
  | cons x X ih => simp only [mapVal_cons, combine, List.zipWith_cons_cons, zero_add, one_smul] at ih ⊢; rw [ih]

/-! ## Property theorems -/

/-- **C245 (initial conditions).** The prediction from a combination of initial conditions is the combination of the predictions; all three are refused for the same reason, or none. -/
theorem C245_initial (A : Matrix ι ι R) (dt : Int) (times : List Int) (a b : R) (X X' : List (Row Int (ι → R))) (h : SameIndex X X') :
    Superposes a b (predictMatrix A dt X times) (predictMatrix A dt X' times) (predictMatrix A dt (combine a b X X') times) := by
  obtain ⟨r, rfl, rfl⟩ := rows_joint X X' h
  rw [combine_joint, predictMatrix_joint A dt times r (f := fun v => v.1) (fun _ _ => rfl), predictMatrix_joint A dt times r (f := fun v => v.2) (fun _ _ => rfl),
    predictMatrix_joint A dt times r (f := comb a b) (fun M v => twice_comb M a b v)]
  exact superposes_joint a b _

omit [DecidableEq ι] in
/-- **C245 (control).** The same for initial conditions and control input together. -/
theorem C245_control (A : Matrix ι ι R) (B : Matrix ι κ R) (times : List Int) (a b : R) (X X' : List (Row Int (ι → R))) (U U' : List (Row Int (κ → R)))
    (h : SameIndex X X') (hU : SameIndex U U') :
    Superposes a b (predictControlled A B X U times) (predictControlled A B X' U' times) (predictControlled A B (combine a b X X') (combine a b U U') times) := by
  obtain ⟨r, rfl, rfl⟩ := rows_joint X X' h
  obtain ⟨s, rfl, rfl⟩ := rows_joint U U' hU
  rw [combine_joint, combine_joint, predictControlled_joint A B times r s (f := fun v => v.1) (g := fun v => v.1) (fun _ _ => rfl),
    predictControlled_joint A B times r s (f := fun v => v.2) (g := fun v => v.2) (fun _ _ => rfl),
    predictControlled_joint A B times r s (f := comb a b) (g := comb a b) (fun x u => by
      simp only [comb, mulVec_add, mulVec_smul, smul_add]
      abel)]
  exact superposes_joint a b _

omit [DecidableEq ι] in
/-- **C245 (response).** A controlled prediction is the sum of the prediction without control (zero input) and the response of the resting system (zero initial conditions). -/
theorem C245_response (A : Matrix ι ι R) (B : Matrix ι κ R) (times : List Int) (X : List (Row Int (ι → R))) (U : List (Row Int (κ → R))) :
    Superposes 1 1 (predictControlled A B X (mapVal (fun _ => 0) U) times) (predictControlled A B (mapVal (fun _ => 0) X) U times) (predictControlled A B X U times) := by
  have h := C245_control A B times 1 1 X (mapVal (fun _ => 0) X) (mapVal (fun _ => 0) U) U (by unfold SameIndex; rw [mapVal_keys]) (by unfold SameIndex; rw [mapVal_keys])
  rwa [combine_zero_right, combine_zero_left] at h

/-! ## Examples -/

/-- Two time series of initial conditions. -/
def exSup : List (Row Int (Fin 1 → Int)) := [⟨0, 0, ![1]⟩, ⟨1, 0, ![2]⟩]
/-- Other values with the same index. -/
def exSup' : List (Row Int (Fin 1 → Int)) := [⟨0, 0, ![10]⟩, ⟨1, 0, ![30]⟩]
/-- Control for one step. -/
def exSupU : List (Row Int (Fin 1 → Int)) := [⟨0, 0, ![5]⟩, ⟨1, 0, ![7]⟩]
/-- Other control for one step. -/
def exSupU' : List (Row Int (Fin 1 → Int)) := [⟨0, 0, ![-1]⟩, ⟨1, 0, ![4]⟩]

example : SameIndex exSup exSup' ∧ SameIndex exSupU exSupU' ∧ mapVal (fun v => v 0) (combine 2 3 exSup exSup') = [⟨0, 0, 32⟩, ⟨1, 0, 94⟩] := by
  exact ⟨rfl, rfl, by decide +kernel⟩

/-- The predictions succeed, and the one of the combination is the combination of the others: `2 * 7 + 3 * 19 = 71`. -/
example : (∃ d, predictControlled (2 : Matrix (Fin 1) (Fin 1) Int) 1 exSup exSupU [0, 1] = .ok d ∧ content d 0 = [(0, ![1]), (1, ![7])]) ∧
    (∃ d, predictControlled (2 : Matrix (Fin 1) (Fin 1) Int) 1 exSup' exSupU' [0, 1] = .ok d ∧ content d 0 = [(0, ![10]), (1, ![19])]) ∧
    (∃ d, predictControlled (2 : Matrix (Fin 1) (Fin 1) Int) 1 (combine 2 3 exSup exSup') (combine 2 3 exSupU exSupU') [0, 1] = .ok d ∧
      content d 0 = [(0, ![32]), (1, ![71])]) := by
  refine ⟨?_, ?_, ?_⟩
  · obtain ⟨d, hd, _, _, _, hc⟩ := evolveFrame_ok exSup 0 [1]
      (fun ics norm => flowmapMatrixControlled (2 : Matrix (Fin 1) (Fin 1) Int) 1 ics [[![5]], [![7]]] norm) (by simp [exSup])
      (by decide) (by decide) rfl (by decide +kernel)
    exact ⟨d, hd, by have := hc 0 (by decide); rw [show exSup[0].id = 0 from rfl] at this; rw [this]; decide +kernel⟩
  · obtain ⟨d, hd, _, _, _, hc⟩ := evolveFrame_ok exSup' 0 [1]
      (fun ics norm => flowmapMatrixControlled (2 : Matrix (Fin 1) (Fin 1) Int) 1 ics [[![-1]], [![4]]] norm) (by simp [exSup'])
      (by decide) (by decide) rfl (by decide +kernel)
    exact ⟨d, hd, by have := hc 0 (by decide); rw [show exSup'[0].id = 0 from rfl] at this; rw [this]; decide +kernel⟩
  · obtain ⟨d, hd, _, _, _, hc⟩ := evolveFrame_ok (combine 2 3 exSup exSup') 0 [1]
      (fun ics norm => flowmapMatrixControlled (2 : Matrix (Fin 1) (Fin 1) Int) 1 ics
        (blocks 1 2 ((combine 2 3 exSupU exSupU').map (·.val))) norm) (by simp [exSup, exSup', combine])
      (by decide) (by decide) rfl (by decide +kernel)
    exact ⟨d, hd, by have := hc 0 (by decide); rw [show (combine 2 3 exSup exSup')[0].id = 0 from rfl] at this; rw [this]; decide +kernel⟩

end Verif.Dyn
