import Verif.Kernel.Radial
/-!
# Model of the Laplacian pyramids

`datafold/dynfold/outofsample.py` 495-925 (`LaplacianPyramidsInterpolator`).  Exact real arithmetic: `1e-15` is the real number, and `epsilon` never underflows.
Training points are indexed by `n`, target functions by `d`.  The columns of the arrays `target_values`, `current_residual` and `current_residual_norm` belong to the entries of the
index array `active_func_indices`; they are lists of the same length, cut by the same Boolean masks as in the code.  The matrix `func_approx` has one column per target function.
The `while` loop takes a number of iterations it may use; `none` is the result of a loop that has not ended by then.
-/

namespace Verif.Kernel

open Matrix

variable {m n d e : Type} [Fintype m] [Fintype n] [Fintype d] [Fintype e] [DecidableEq d] [DecidableEq n]

/-- The parameters (outofsample.py 551-563). -/
structure LpConfig where
  initialEpsilon : ℝ
  mu : ℝ
  residualTol : Option ℝ
  autoAdaptive : Bool
  alpha : ℝ

open Classical in
/-- The checks of the parameters in `_validate` (outofsample.py 569-590). -/
noncomputable def LpConfig.check (cfg : LpConfig) : Except KErr Unit :=
  if cfg.residualTol = none ∧ cfg.autoAdaptive = false then .error .value
  else if ∃ t, cfg.residualTol = some t ∧ t < 0 then .error .value
  else if cfg.mu < 1 then .error .value
  else .ok ()

/-- `_LoopCond` (outofsample.py 544-549); the value `TERMINATED` is never used. -/
inductive LoopCond
  | noTermination | loocvIncreases | belowResTol | tinyRes
deriving DecidableEq, Repr

/-- `np.linalg.norm(column)`. -/
noncomputable def norm2 (v : n → ℝ) : ℝ := Real.sqrt (∑ i, v i ^ 2)

open Classical in
/-- `_termination_rules_single` (outofsample.py 626-656); the last norm is `nan` (here `none`) in the first iteration. -/
noncomputable def terminationRule (cfg : LpConfig) (current : ℝ) (last : Option ℝ) : LoopCond :=
  let s0 := if cfg.autoAdaptive = true ∧ ∃ l, last = some l ∧ l < current then LoopCond.loocvIncreases else .noTermination
  let s1 := if s0 = .noTermination ∧ ∃ t, cfg.residualTol = some t ∧ current ≤ t then LoopCond.belowResTol else s0
  if s1 = .noTermination ∧ current < 1 / 10 ^ 15 then .tinyRes else s1

/-- An entry of `_level_tracker` (outofsample.py 682-697); the kernel object is given by its bandwidth and its fitted attributes. -/
structure Level (n d : Type) where
  eps : ℝ
  fitted : Fitted n
  target : List (n → ℝ)
  norms : List ℝ
  active : List d

/-- The local variables of the loop (outofsample.py 770-786). -/
structure LpState (n d : Type) where
  eps : ℝ
  approx : d → n → ℝ
  target : List (n → ℝ)
  active : List d
  norms : List (Option ℝ)
  conds : d → LoopCond
  levels : List (Level n d)

/-- The kernel of a level (outofsample.py 734-740). -/
def lpKernel (cfg : LpConfig) : DmapKernel := { isStochastic := true, alpha := cfg.alpha, symmetrize := false, distSymmetric := true }

/-- `dmap_kernel.evaluate(distance_matrix, is_pdist=True)` (outofsample.py 742-744). -/
noncomputable def lpMatrix (cfg : LpConfig) (eps : ℝ) (D : Matrix n n ℝ) : Except KErr (Matrix n n ℝ × Fitted n) :=
  match (Radial.gaussian eps).evaluate D with
  | .error er => .error er
  | .ok K => evalPdist (lpKernel cfg) none K

/-- `np.fill_diagonal(kernel_matrix, 0)`, only for auto-adaptive models (outofsample.py 749-752). -/
def lpDiagonal (cfg : LpConfig) (P : Matrix n n ℝ) : Matrix n n ℝ := Matrix.of (fun i j => if cfg.autoAdaptive = true ∧ i = j then 0 else P i j)

/-- The column of `vals` that belongs to the function `c`, zero if it is not active: the effect of `array[:, active] += vals` on column `c`. -/
def columnOf (active : List d) (vals : List (n → ℝ)) (c : d) : n → ℝ :=
  match (active.zip vals).find? (fun p => p.1 = c) with
  | some p => p.2
  | none => 0

/-- Entry `c` of `array` after `array[active] = vals`. -/
def assign {α : Type} (active : List d) (vals : List α) (old : d → α) (c : d) : α :=
  match (active.zip vals).find? (fun p => p.1 = c) with
  | some p => p.2
  | none => old c

/-- `array[mask]`. -/
def masked {α : Type} (mask : List Bool) (l : List α) : List α := ((mask.zip l).filter (fun p => p.1)).map (fun p => p.2)

/-- The body of the loop after the kernel matrix `P` has been computed (outofsample.py 791-852, with the termination rules of all active functions, outofsample.py 658-670, and the removal of functions, outofsample.py 701-715 and outofsample.py 717-732). -/
noncomputable def lpUpdate (cfg : LpConfig) (y : d → n → ℝ) (P : Matrix n n ℝ) (fitted : Fitted n) (s : LpState n d) : LpState n d :=
  let approx : d → n → ℝ := fun c => s.approx c + columnOf s.active (s.target.map (fun t => P *ᵥ t)) c
  let residual := s.active.map (fun c => y c - approx c)
  let norms := residual.map norm2
  let curr := List.zipWith (terminationRule cfg) norms s.norms
  let conds := assign s.active curr s.conds
  let keep := curr.map (fun b => b != .loocvIncreases)
  let active1 := masked keep s.active
  let target1 := masked keep s.target
  let residual1 := masked keep residual
  let norms1 := masked keep norms
  let curr1 := curr.filter (fun b => b != .loocvIncreases)
  let stop := curr1.map (fun b => b == .belowResTol || b == .tinyRes)
  let tracked := active1 ≠ []
  let active2 := if tracked then masked (stop.map not) active1 else active1
  let residual2 := if tracked then masked (stop.map not) residual1 else residual1
  let norms2 := if tracked then masked (stop.map not) norms1 else norms1
  let levels := if tracked then s.levels ++ [⟨s.eps, fitted, target1, norms1, active1⟩] else s.levels
  { eps := if .noTermination ∈ curr then s.eps / cfg.mu else s.eps
    approx := approx
    target := if .noTermination ∈ curr then residual2 else target1
    active := active2
    norms := norms2.map some
    conds := conds
    levels := levels }

/-- One iteration of the loop (outofsample.py 788-852). -/
noncomputable def lpStep (cfg : LpConfig) (D : Matrix n n ℝ) (y : d → n → ℝ) (s : LpState n d) : Except KErr (LpState n d) :=
  match lpMatrix cfg s.eps D with
  | .error er => .error er
  | .ok (P, f) => .ok (lpUpdate cfg y (lpDiagonal cfg P) f s)

/-- The `while` loop with at most the given number of iterations (outofsample.py 788-854). -/
noncomputable def lpLoop (cfg : LpConfig) (D : Matrix n n ℝ) (y : d → n → ℝ) : Nat → LpState n d → Except KErr (Option (List (Level n d)))
  | fuel, s =>
    if ∃ c, s.conds c = .noTermination then
      match fuel with
      | 0 => .ok none
      | fuel + 1 =>
        match lpStep cfg D y s with
        | .error er => .error er
        | .ok s' => lpLoop cfg D y fuel s'
    else .ok (some s.levels)

/-- The variables before the first iteration (outofsample.py 770-786); `funcs` is `np.arange(n_targets_)`. -/
noncomputable def lpInit (cfg : LpConfig) (funcs : List d) (y : d → n → ℝ) : LpState n d :=
  { eps := cfg.initialEpsilon, approx := fun _ => 0, target := funcs.map y, active := funcs, norms := funcs.map (fun _ => none), conds := fun _ => .noTermination, levels := [] }

/-- `_distance_matrix(X, Y)`: squared Euclidean distances, one row per query point (outofsample.py 672-678). -/
def lpDistance (X : n → e → ℝ) (Y : m → e → ℝ) : Matrix m n ℝ := Matrix.of (fun i j => sqDist (Y i) (X j))

/-- `fit` (outofsample.py 856-880): the tracked levels, or `none` if the loop has not ended after the given number of iterations. -/
noncomputable def lpFit (cfg : LpConfig) (funcs : List d) (X : n → e → ℝ) (y : d → n → ℝ) (fuel : Nat) : Except KErr (Option (List (Level n d))) :=
  match cfg.check with
  | .error er => .error er
  | .ok _ => if Fintype.card n < 2 then .error .value else lpLoop cfg (lpDistance X X) y fuel (lpInit cfg funcs y)

/-- `level["kernel"].evaluate(distance_matrix)` (outofsample.py 905). -/
noncomputable def lpQuery (cfg : LpConfig) (l : Level n d) (D : Matrix m n ℝ) : Except KErr (Matrix m n ℝ) :=
  match (Radial.gaussian l.eps).evaluate D with
  | .error er => .error er
  | .ok K => evalCdist (lpKernel cfg) (some l.fitted) K

/-- The loop over the levels in `predict` (outofsample.py 901-908). -/
noncomputable def lpSum (cfg : LpConfig) (D : Matrix m n ℝ) : List (Level n d) → (d → m → ℝ) → Except KErr (d → m → ℝ)
  | [], acc => .ok acc
  | l :: ls, acc =>
    match lpQuery cfg l D with
    | .error er => .error er
    | .ok P => lpSum cfg D ls (fun c => acc c + columnOf l.active (l.target.map (fun t => P *ᵥ t)) c)

/-- `predict` (outofsample.py 882-913), with one column per target function. -/
noncomputable def lpPredict (cfg : LpConfig) (X : n → e → ℝ) (levels : List (Level n d)) (Y : m → e → ℝ) : Except KErr (d → m → ℝ) :=
  lpSum cfg (lpDistance X Y) levels (fun _ => 0)

end Verif.Kernel
