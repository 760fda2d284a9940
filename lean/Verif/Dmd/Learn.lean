import Verif.Dmd.Standard
import Verif.Tsc.MapVal
/-!
# Model of the dictionary learnt by a neural network

`datafold/dynfold/dictlearning.py` 89-212, 214-371 and 643-655 (`FeedforwardNN`): the layers of the network, the dictionary, the names of its functions and the system matrix.  The trained
network is an arbitrary function `ψ` of the state, arithmetic is exact.
-/

namespace Verif.Dmd

open Verif.Tsc Verif.Np Verif.Lin Matrix

variable {ι κ : Type}

/-- The functions of the dictionary, in the order of the columns: the states (only with `include_id_state`), the constant and the outputs of the network (dictlearning.py 302-310). -/
abbrev LearnIx (incl : Bool) (ι κ : Type) := {_i : ι // incl = true} ⊕ (Unit ⊕ κ)

/-- `_augment_id_const` (dictlearning.py 302-310) for one row: the state, one, the outputs of the network. -/
def augmentState (incl : Bool) (ψ : (ι → ℝ) → κ → ℝ) (x : ι → ℝ) : LearnIx incl ι κ → ℝ
  | .inl i => x i.1
  | .inr (.inl _) => 1
  | .inr (.inr k) => ψ x k

/-- `transform` (dictlearning.py 649-655): every row is mapped, IDs and time values are kept. -/
def learnTransform {τ : Type} (incl : Bool) (ψ : (ι → ℝ) → κ → ℝ) (c : List (Row τ (ι → ℝ))) : List (Row τ (LearnIx incl ι κ → ℝ)) := mapVal (augmentState incl ψ) c

/-- `G` (dictlearning.py 344-348): the Gram matrix, the regularisation is added to the diagonal if it is positive. -/
noncomputable def learnGram {α : Type} [Fintype α] [DecidableEq α] (n : Nat) (reg : ℝ) (ps : List ((α → ℝ) × (α → ℝ))) : Matrix α α ℝ :=
  let G := gram n none (startM ps) (startM ps)
  if 0 < reg then G + Matrix.diagonal (fun _ => reg) else G

/-- `_compute_system_matrix` (dictlearning.py 325-354) and the transposition at the end of `fit` (643-647): `K` is a possible system matrix for the pairs `ps` of dictionary values. -/
def IsLearnedMatrix {α : Type} [Fintype α] [DecidableEq α] (n : Nat) (reg : ℝ) (ps : List ((α → ℝ) × (α → ℝ))) (K : Matrix α α ℝ) : Prop :=
  IsLstsqM (learnGram n reg ps) (gram n none (startM ps) (endM ps)) Kᵀ

/-- The final system matrix of `fit` (dictlearning.py 643-647) for the collection `c` and the trained network `ψ`. -/
def FitsLearned [Fintype ι] [DecidableEq ι] [Fintype κ] [DecidableEq κ] (incl : Bool) (ψ : (ι → ℝ) → κ → ℝ) (reg : ℝ) (c : List (Row Int (ι → ℝ)))
    (K : Matrix (LearnIx incl ι κ) (LearnIx incl ι κ) ℝ) : Prop :=
  ∃ L R, shiftMatrices (learnTransform incl ψ c) = .ok (L, R) ∧ IsLearnedMatrix c.length reg (L.zip R) K

/-! ### Names -/

/-- `get_feature_names_out` (dictlearning.py 261-266). -/
def learnNames (incl : Bool) (names : List String) (nDict : Nat) : List String :=
  let psi := "const" :: (List.range nDict).map (fun i => "psi" ++ Nat.repr i)
  if incl then names ++ psi else psi

/-- `n_features_out_` after `fit` (dictlearning.py 490: `n_features_out=self.n_dict_elements`). -/
def learnFeaturesOut (nDict : Nat) : Nat := nDict

/-- `transform` with the names (dictlearning.py 315-323): the result is a time series collection with the columns `get_feature_names_out()`; the collection refuses duplicated columns. -/
def learnTransformNamed {τ : Type} (incl : Bool) (ψ : (ι → ℝ) → κ → ℝ) (names : List String) (nDict : Nat) (c : List (Row τ (ι → ℝ))) :
    Option (List (Row τ (LearnIx incl ι κ → ℝ))) :=
  if (learnNames incl names nDict).Nodup then some (learnTransform incl ψ c) else none

/-! ### The network -/

/-- `layer_sizes` (dictlearning.py 149-151). -/
def layerSizes (input hidden nHidden output : Nat) : List Nat := [input] ++ List.replicate (nHidden + 1) hidden ++ [output]

/-- The modules of the network: linear layers with their sizes, and activation functions. -/
inductive Layer | linear (nIn nOut : Nat) | activation
deriving DecidableEq, Repr

/-- The loop over the layers (dictlearning.py 154-166): `i` from 0 to `len(layer_sizes) - 2`, the activation is left out after the last layer. -/
def buildLayers (sizes : List Nat) : List Layer :=
  (List.range (sizes.length - 1)).flatMap (fun i =>
    Layer.linear (sizes.getD i 0) (sizes.getD (i + 1) 0) :: (if i ≠ sizes.length - 2 then [Layer.activation] else []))

/-- `p.numel()` of the parameters of a module: the weights and the bias (torch). -/
def Layer.numel : Layer → Nat
  | .linear a b => a * b + b
  | .activation => 0

/-- `n_params` (dictlearning.py 210-212, 268-270). -/
def nParams (input hidden nHidden output : Nat) : Nat := ((buildLayers (layerSizes input hidden nHidden output)).map Layer.numel).sum

end Verif.Dmd
