import Verif.Utils.Benchmarks
import Verif.Utils.Systems
/-!
# Model of the controlled benchmark systems

`datafold/utils/_systems.py`: `InvertedPendulum2._f` (812-841), `VanDerPol` (1203-1239) and `Duffing._f` (1253-1258); exact real arithmetic.  `DCMotor._f` is `dcMotor` in `Utils/Systems.lean`.
-/

namespace Verif.Utils

open Real

/-- Parameters of the constructor of `InvertedPendulum2` (_systems.py 790-805). -/
structure CartPole2 where
  mass : ℝ
  cartMass : ℝ
  gain : ℝ
  length : ℝ
  friction : ℝ

/-- `InvertedPendulum2._f` (_systems.py 812-841); the constants `M`, `m`, `b`, `ftheta`, `l` and `g` are local variables of the function. -/
noncomputable def cartPole2 (_p : CartPole2) (y : CartState) (u : ℝ) : CartState :=
  let M : ℝ := 0.5
  let m : ℝ := 0.2
  let b : ℝ := 0.1
  let ftheta : ℝ := 0.1
  let l : ℝ := 0.3
  let g : ℝ := 9.81
  ⟨y.xdot,
    (m * l * sin y.theta * y.thetadot ^ 2 - m * g * sin y.theta * cos y.theta + m * ftheta * cos y.theta * y.thetadot + u - b * y.xdot) / (M + m * (1 - cos y.theta ^ 2)),
    y.thetadot,
    ((M + m) * (g * sin y.theta - ftheta * y.thetadot) - m * l * y.thetadot ^ 2 * sin y.theta * cos y.theta - (u - b * y.xdot) * cos y.theta) / (l * (M + m * (1 - cos y.theta ^ 2)))⟩

/-- The names of the controls of `VanDerPol` (_systems.py 1212-1219); `none` is the `ValueError`. -/
def vdpNames (coord : String) : Option (List String) :=
  if coord = "x" ∨ coord = "y" then some ["u" ++ coord] else if coord = "both" then some ["ux", "uy"] else none

/-- The control of the two coordinates (_systems.py 1230-1236); `none` if `u` cannot be unpacked. -/
def vdpInput (names : List String) (u : List ℝ) : Option (ℝ × ℝ) :=
  if names.length = 1 ∧ "ux" ∈ names then u.head?.map (fun a => (a, 0))
  else if names.length = 1 ∧ "uy" ∈ names then u.head?.map (fun a => (0, a))
  else match u with
    | [a, b] => some (a, b)
    | _ => none

/-- `VanDerPol._f` (_systems.py 1227-1239) of one state. -/
def vanDerPol (eps : ℝ) (names : List String) (y : ℝ × ℝ) (u : List ℝ) : Option (ℝ × ℝ) :=
  (vdpInput names u).map (fun w => (y.2 + w.1, -y.1 + eps * (1 - y.1 ^ 2) * y.2 + w.2))

/-- `Duffing._f` (_systems.py 1253-1258). -/
def duffing (alpha beta delta : ℝ) (y : ℝ × ℝ) (u : ℝ) : ℝ × ℝ := (y.2, -delta * y.2 - y.1 * (beta + alpha * y.1 ^ 2) + u)

end Verif.Utils
