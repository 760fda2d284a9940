import Mathlib.Analysis.SpecialFunctions.Trigonometric.Inverse
import Mathlib.Analysis.SpecialFunctions.Complex.Arg
import Mathlib.Analysis.SpecialFunctions.Sqrt
import Mathlib.Algebra.BigOperators.Fin
/-!
# Model of the benchmark systems

`datafold/utils/_systems.py` 290-1083, with exact real numbers.  Data frames are pairs or lists; animations, the random noise of `ClosedPeriodicalCurve` and the calls of ODE solvers are not modelled.
-/

namespace Verif.Utils

open Real

/-- Euclidean norm of a point in the plane (`np.linalg.norm`). -/
noncomputable def norm2 (x1 x2 : ℝ) : ℝ := √(x1 ^ 2 + x2 ^ 2)

/-- `LimitCycle._compute_angle` (_systems.py 295-309); `tiny` is `1e-15`. -/
noncomputable def cycleAngle (x1 x2 : ℝ) : ℝ :=
  if norm2 x1 x2 < 10 ^ (-15 : ℤ) then 0
  else if x2 < 0 then 2 * π - arccos (x1 / norm2 x1 x2)
  else arccos (x1 / norm2 x1 x2)

/-- `LimitCycle._as_cartesian_coordinates` (_systems.py 311-313). -/
noncomputable def cycleCartesian (ang rad : ℝ) : ℝ × ℝ := (rad * cos ang, rad * sin ang)

/-- `np.linspace(0, dt * (n - 1), n)` (_systems.py 335, 357): entry `i`. -/
noncomputable def linspaceTime (dt : ℝ) (n i : Nat) : ℝ := if n = 1 then 0 else i * (dt * (n - 1) / (n - 1))

/-- The radius in `LimitCycle.eval_analytical` (_systems.py 366) for the starting radius `r0`. -/
noncomputable def cycleRadius (r0 t : ℝ) : ℝ := exp t / √(-1 + exp (2 * t) + 1 / r0 ^ 2)

/-- `LimitCycle.eval_analytical` (_systems.py 355-372): angle and radius in row `i`; a small number is added to the starting radius. -/
noncomputable def cycleAnalytical (eps x1 x2 dt : ℝ) (n i : Nat) : ℝ × ℝ :=
  (1 / eps * linspaceTime dt n i + cycleAngle x1 x2, cycleRadius (norm2 x1 x2 + 10 ^ (-10 : ℤ)) (linspaceTime dt n i))

/-- `LimitCycle.eval_finite_differences` (_systems.py 331-353): angle and radius in row `i`. -/
noncomputable def cycleEuler (eps x1 x2 dt : ℝ) : Nat → ℝ × ℝ
  | 0 => (cycleAngle x1 x2, norm2 x1 x2)
  | i + 1 =>
    let p := cycleEuler eps x1 x2 dt i
    (p.1 + dt * 1 / eps, p.2 + dt * ((-p.2 ^ 2 + 1) * p.2))

/-- `Hopf._f` (_systems.py 421-428). -/
noncomputable def hopf (mu : ℝ) (y : ℝ × ℝ) : ℝ × ℝ := (-y.2 + y.1 * (mu - y.1 ^ 2 - y.2 ^ 2), y.1 + y.2 * (mu - y.1 ^ 2 - y.2 ^ 2))

/-- The two ways to give initial conditions to `Hopf.predict`: an array or a data frame. -/
inductive HopfIc | array (rows : List (ℝ × ℝ)) | frame (rows : List (ℝ × ℝ))

/-- Polar to Cartesian coordinates (_systems.py 446-448). -/
noncomputable def fromPolar (p : ℝ × ℝ) : ℝ × ℝ := (p.1 * cos p.2, p.1 * sin p.2)

/-- The initial states that `Hopf.predict` simulates, and the content of the argument after the call (_systems.py 441-457).  The converted array is not used; a data frame is overwritten. -/
noncomputable def hopfStart (polar : Bool) : HopfIc → List (ℝ × ℝ) × HopfIc
  | .array rows => (rows, .array rows)
  | .frame rows => if polar then (rows.map fromPolar, .frame (rows.map fromPolar)) else (rows, .frame rows)

/-- `np.arctan2(y, x)`: the argument of `x + iy`. -/
noncomputable def arctan2 (y x : ℝ) : ℝ := Complex.arg ⟨x, y⟩

/-- Radius and angle returned by `Hopf.predict` (_systems.py 467-469); `none` is the quotient with the denominator zero. -/
noncomputable def hopfPolar (x : ℝ × ℝ) : Option ℝ × ℝ :=
  let theta := arctan2 x.2 x.1
  (if cos theta = 0 then none else some (x.1 / cos theta), theta)

/-- `ThreeStablePoints._f` (_systems.py 382-385). -/
def threePoints (x : ℝ × ℝ) : ℝ × ℝ := (x.1 - x.1 * x.2, x.1 ^ 2 - 2 * x.2)

/-- `Lorenz._f` (_systems.py 1280-1285). -/
def lorenz (sigma rho beta : ℝ) (y : ℝ × ℝ × ℝ) : ℝ × ℝ × ℝ := (sigma * (y.2.1 - y.1), y.1 * (rho - y.2.2) - y.2.1, y.1 * y.2.1 - beta * y.2.2)

/-- `ClosedPeriodicalCurve._closed_system` without noise (_systems.py 489-503). -/
noncomputable def closedCurve (c : Fin 5 → ℝ) (t : ℝ) : ℝ × ℝ × ℝ := (sin (c 0 * t) * cos (c 1 * t), sin (c 2 * t) * sin (c 3 * t), sin (c 4 * t))

/-- `Pendulum._integrate_pendulum_sim` (_systems.py 521-526); a state is angle and angular velocity. -/
noncomputable def pendulum (mass length friction gravity : ℝ) (x : ℝ × ℝ) : ℝ × ℝ := (x.2, -friction / mass * x.2 - gravity / length * sin x.1)

/-- `Pendulum._convert_cartesian` (_systems.py 528-539) with the fixation point `(0, length)`. -/
noncomputable def pendulumCartesian (length theta : ℝ) : ℝ × ℝ := (0 + length * cos (theta - π / 2), length + length * sin (theta - π / 2))

/-- Parameters of `InvertedPendulum` (_systems.py 603-622). -/
structure CartPole where
  m : ℝ
  M : ℝ
  g : ℝ
  gain : ℝ
  length : ℝ
  friction : ℝ

/-- A state of the cart and the pendulum: position, velocity, angle, angular velocity. -/
structure CartState where
  x : ℝ
  xdot : ℝ
  theta : ℝ
  thetadot : ℝ

/-- `InvertedPendulum._f` (_systems.py 624-654). -/
noncomputable def cartPole (p : CartPole) (y : CartState) (u : ℝ) : CartState :=
  let alpha := p.M + p.m * sin y.theta ^ 2
  ⟨y.xdot,
    (p.gain + p.m * p.g * sin y.theta * cos y.theta - p.m * p.length * y.thetadot ^ 2 * sin y.theta - 2 * p.friction * y.xdot + u) / alpha,
    y.thetadot,
    (p.gain * cos y.theta - p.m * p.length * y.thetadot ^ 2 * sin y.theta * cos y.theta + (p.M + p.m) * p.g * sin y.theta - 2 * p.friction * y.xdot * cos y.theta) / (p.length * alpha)⟩

/-- The columns after `theta_to_trigonometric` (_systems.py 656-667, 843-854). -/
structure TrigState where
  x : ℝ
  xdot : ℝ
  thetaCos : ℝ
  thetaSin : ℝ
  thetadotCos : ℝ
  thetadotSin : ℝ

/-- `theta_to_trigonometric` (_systems.py 656-667, 843-854) of one row. -/
noncomputable def toTrig (y : CartState) : TrigState := ⟨y.x, y.xdot, cos y.theta, sin y.theta, cos y.thetadot, sin y.thetadot⟩

/-- `trigonometric_to_theta` (_systems.py 669-680, 856-867) of one row. -/
noncomputable def fromTrig (s : TrigState) : CartState := ⟨s.x, s.xdot, arctan2 s.thetaSin s.thetaCos, arctan2 s.thetadotSin s.thetadotCos⟩

/-- The cyclic predecessor and successor of a node in `y_pad` (_systems.py 967-968). -/
def prevNode {n : Nat} [NeZero n] (i : Fin n) : Fin n := i - 1

/-- The node after `i` in `y_pad`. -/
def nextNode {n : Nat} [NeZero n] (i : Fin n) : Fin n := i + 1

/-- The grid size of `Burger1DPeriodicBoundary` (_systems.py 951-952). -/
noncomputable def burgerDx (n : Nat) : ℝ := 2 * π / (n - 1)

/-- `Burger1DPeriodicBoundary._f` (_systems.py 961-978). -/
noncomputable def burger {n : Nat} [NeZero n] (nu dx : ℝ) (y u : Fin n → ℝ) (i : Fin n) : ℝ :=
  -((-y (prevNode i) + y (nextNode i)) / (2 * dx) * y i) + nu * ((y (prevNode i) - 2 * y i + y (nextNode i)) / dx ^ 2) + u i

/-- The residual that `Burger1DPeriodicBoundary._step` drives to zero with Newton's method (_systems.py 1026-1042): `x` is the current iterate, which is subtracted, the state before the step does not occur. -/
noncomputable def burgerResidual {n : Nat} [NeZero n] (nu dx dt : ℝ) (x u : Fin n → ℝ) (i : Fin n) : ℝ :=
  let factor := -(dt * nu) / dx ^ 2
  (-x (prevNode i) + x (nextNode i)) / (2 * dx) * dt * x i + (factor * x (prevNode i) + (1 + (2 * dt * nu) / dx ^ 2) * x i + factor * x (nextNode i)) - x i - dt * u i

end Verif.Utils
