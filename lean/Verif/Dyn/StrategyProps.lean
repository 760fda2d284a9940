import Verif.Dyn.Strategy
/-!
# C25: the selected solver honours the configuration
-/

namespace Verif.Dyn

/-- Specification: what each solver does, read off its documentation and its arguments: (system type, mode, uses the control input,
affine control). -/
def Strategy.does : Strategy → SysType × SysMode × Bool × Bool
  | .differentialMatrix => (.differential, .matrix, false, false)
  | .differentialMatrixControlled => (.differential, .matrix, true, false)
  | .differentialMatrixControlledAffine => (.differential, .matrix, true, true)
  | .differentialSpectral => (.differential, .spectral, false, false)
  | .flowmapMatrix => (.flowmap, .matrix, false, false)
  | .flowmapSpectral => (.flowmap, .spectral, false, false)
  | .flowmapMatrixControlled => (.flowmap, .matrix, true, false)
  | .flowmapSpectralControlled => (.flowmap, .spectral, true, false)

/-- The solver fits the settings; for a system without control the affine flag has no meaning. -/
def Honours (s : Strategy) (ty : SysType) (mode : SysMode) (controlled affine : Bool) : Prop :=
  s.does = (ty, mode, controlled, controlled && affine)

instance (s ty mode c a) : Decidable (Honours s ty mode c a) := inferInstanceAs (Decidable (_ = _))

/-- **C25** (partial: all settings except a controlled differential system in matrix mode).  A selected solver honours system type, mode,
control and affinity. -/
theorem C25_honours_partial (ty : SysType) (mode : SysMode) (ti controlled affine : Bool) (s : Strategy)
    (hne : ¬(ty = .differential ∧ mode = .matrix ∧ controlled = true))
    (h : selectStrategy ty mode ti controlled affine = .ok s) : Honours s ty mode controlled affine := by
  revert h hne
  cases ty <;> cases mode <;> cases ti <;> cases controlled <;> cases affine <;> simp [selectStrategy] <;>
    (rintro rfl; decide)

/-- **C25**: which settings are accepted.  Accepted are exactly the time invariant systems that are uncontrolled, a controlled flowmap
that is not affine, or differential in matrix mode. -/
theorem C25_accepts (ty : SysType) (mode : SysMode) (ti controlled affine : Bool) :
    (∃ s, selectStrategy ty mode ti controlled affine = .ok s) ↔
      ti = true ∧ (controlled = false ∨ (ty = .flowmap ∧ affine = false) ∨ (ty = .differential ∧ mode = .matrix)) := by
  cases ty <;> cases mode <;> cases ti <;> cases controlled <;> cases affine <;> simp [selectStrategy]

/-- **C25 is violated** by the code: every controlled differential system in matrix mode, affine or not, is evolved with the solver that
ignores the control input, and the affine solver is never selected. -/
theorem C25_violated :
    (∀ affine, ∃ s, selectStrategy .differential .matrix true true affine = .ok s ∧ s.does.2.2.1 = false) ∧
    (∀ ty mode ti controlled affine,
      selectStrategy ty mode ti controlled affine ≠ .ok .differentialMatrixControlledAffine ∧
      selectStrategy ty mode ti controlled affine ≠ .ok .differentialMatrixControlled) := by
  constructor
  · intro a; exact ⟨.differentialMatrix, by cases a <;> rfl, rfl⟩
  · intro ty mode ti controlled affine
    cases ty <;> cases mode <;> cases ti <;> cases controlled <;> cases affine <;> simp [selectStrategy]

example : selectStrategy .flowmap .spectral true true false = .ok .flowmapSpectralControlled ∧
    Honours .flowmapSpectralControlled .flowmap .spectral true false := ⟨rfl, rfl⟩

end Verif.Dyn
