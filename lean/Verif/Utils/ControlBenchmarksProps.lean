import Verif.Utils.ControlBenchmarks
import Mathlib.Analysis.SpecialFunctions.Trigonometric.Deriv
import Mathlib.Tactic.LinearCombination
import Mathlib.Tactic.Positivity
/-! # Property C202: the controlled benchmark systems follow their equations -/

namespace Verif.Utils

open Real

/-! ## Specification -/

/-- Cart with mass 0.5 kg and viscous friction 0.1, driven by the force `u`; rod of length 0.3 m with a mass of 0.2 kg at its end and friction 0.1 in the joint, angle from the upright position: balance of
the horizontal momentum and of the moments at the joint for the accelerations `a` of the cart and `w` of the angle. -/
def CartBalance (y : CartState) (u a w : ℝ) : Prop :=
  (0.5 + 0.2) * a + 0.2 * 0.3 * (w * cos y.theta - y.thetadot ^ 2 * sin y.theta) = u - 0.1 * y.xdot ∧ 0.3 * w + a * cos y.theta = 9.81 * sin y.theta - 0.1 * y.thetadot

/-- Kinetic and potential energy of cart and pendulum. -/
noncomputable def cartEnergy (y : CartState) : ℝ :=
  1 / 2 * 0.5 * y.xdot ^ 2 + 1 / 2 * 0.2 * ((y.xdot + 0.3 * cos y.theta * y.thetadot) ^ 2 + (0.3 * sin y.theta * y.thetadot) ^ 2) + 0.2 * 9.81 * 0.3 * cos y.theta

/-- The equations in the documentation of `DCMotor` (_systems.py 1096-1103) with the documented parameters. -/
noncomputable def dcMotorDoc (u x1 x2 : ℝ) : ℝ × ℝ :=
  let La : ℝ := 0.314
  let Ra : ℝ := 12.345
  let km : ℝ := 0.253
  let J : ℝ := 0.00441
  let B : ℝ := 0.00732
  let tau : ℝ := 1.47
  let ua : ℝ := 60
  (-(Ra / La) * x1 - km / La * x2 * u + ua / La, -(B / J) * x2 + km / J * x1 * u - tau / J)

/-! ## Property theorems -/

theorem cart_mass_pos (y : CartState) : (0 : ℝ) < 0.5 + 0.2 * (1 - cos y.theta ^ 2) := by
  nlinarith [sin_sq_add_cos_sq y.theta, sq_nonneg (sin y.theta)]

/-- **C202 (second inverted pendulum).** The right-hand side gives the velocities of the state and exactly the accelerations that satisfy the balances of momentum. -/
theorem C202_cart_partial (p : CartPole2) (y : CartState) (u a w : ℝ) :
    (cartPole2 p y u).x = y.xdot ∧ (cartPole2 p y u).theta = y.thetadot ∧ (CartBalance y u a w ↔ a = (cartPole2 p y u).xdot ∧ w = (cartPole2 p y u).thetadot) := by
  refine ⟨rfl, rfl, ?_⟩
  have hpos := cart_mass_pos y
  have hne := hpos.ne'
  have hne3 : (0.3 : ℝ) * (0.5 + 0.2 * (1 - cos y.theta ^ 2)) ≠ 0 := by positivity
  simp only [cartPole2, CartBalance]
  rw [eq_div_iff hne, eq_div_iff hne3]
  set c := cos y.theta
  set s := sin y.theta
  constructor
  · rintro ⟨h1, h2⟩
    constructor
    · linear_combination h1 - 0.2 * c * h2
    · linear_combination (0.5 + 0.2) * h2 - c * h1
  · rintro ⟨h1, h2⟩
    have h3 : (0.5 + 0.2 * (1 - c ^ 2)) * ((0.5 + 0.2) * a + 0.2 * 0.3 * (w * c - y.thetadot ^ 2 * s)) = (0.5 + 0.2 * (1 - c ^ 2)) * (u - 0.1 * y.xdot) := by
      linear_combination (0.5 + 0.2) * h1 + 0.2 * c * h2
    have h4 : (0.5 + 0.2 * (1 - c ^ 2)) * (0.3 * w + a * c) = (0.5 + 0.2 * (1 - c ^ 2)) * (9.81 * s - 0.1 * y.thetadot) := by
      linear_combination c * h1 + h2
    exact ⟨mul_left_cancel₀ hne h3, mul_left_cancel₀ hne h4⟩

/-- **C202 (energy).** Along every solution the energy changes by the work of the force and the losses in the two frictions; without force it does not increase. -/
theorem C202_energy (p : CartPole2) (u : ℝ) (y : ℝ → CartState) (t : ℝ) (h2 : HasDerivAt (fun s => (y s).xdot) (cartPole2 p (y t) u).xdot t)
    (h3 : HasDerivAt (fun s => (y s).theta) (cartPole2 p (y t) u).theta t) (h4 : HasDerivAt (fun s => (y s).thetadot) (cartPole2 p (y t) u).thetadot t) :
    HasDerivAt (fun s => cartEnergy (y s)) (u * (y t).xdot - 0.1 * (y t).xdot ^ 2 - 0.2 * 0.3 * 0.1 * (y t).thetadot ^ 2) t := by
  obtain ⟨-, -, h⟩ := C202_cart_partial p (y t) u (cartPole2 p (y t) u).xdot (cartPole2 p (y t) u).thetadot
  obtain ⟨e1, e2⟩ := h.2 ⟨rfl, rfl⟩
  generalize (cartPole2 p (y t) u).xdot = a at *
  generalize (cartPole2 p (y t) u).thetadot = w at *
  have h3' : HasDerivAt (fun s => (y s).theta) (y t).thetadot t := h3
  have hc := h3'.cos
  have hs := h3'.sin
  have hE := (((h2.pow 2).const_mul (1 / 2 * 0.5)).add ((((h2.add ((hc.const_mul 0.3).mul h4)).pow 2).add (((hs.const_mul 0.3).mul h4).pow 2)).const_mul (1 / 2 * 0.2))).add (hc.const_mul (0.2 * 9.81 * 0.3))
  refine (hE.congr_deriv ?_)
  have hcs := sin_sq_add_cos_sq (y t).theta
  simp only [Pi.add_apply, Pi.mul_apply]
  linear_combination (y t).xdot * e1 + 0.2 * 0.3 * (y t).thetadot * e2 + 0.2 * 0.3 ^ 2 * (y t).thetadot * w * hcs

/-- **C202 fails for the parameters of the second inverted pendulum:** mass of pendulum and cart, force gain, length and friction are accepted and documented, but have no effect: from rest in upright position
the cart is accelerated with `2 u` for all of them, also if the gain is zero. -/
theorem C202_parameters_violated (p : CartPole2) (u : ℝ) : (cartPole2 p ⟨0, 0, 0, 0⟩ u).xdot = 2 * u ∧ ∀ (p' : CartPole2) (y : CartState), cartPole2 p y u = cartPole2 p' y u := by
  refine ⟨?_, fun _ _ => rfl⟩
  simp [cartPole2]
  norm_num
  ring

/-- **C202 (motor).** With states scaled by 10 and 100 and the control by 4, the right-hand side of the motor is the documented one up to the
rounding of the coefficients. -/
theorem C202_motor (U X1 X2 : ℝ) : |10 * (dcMotor U (X1, X2)).1 - (dcMotorDoc (4 * U) (10 * X1) (100 * X2)).1| ≤ 2 / 10 ^ 4 * (|X1| + |X2 * U| + 1) ∧
    |100 * (dcMotor U (X1, X2)).2 - (dcMotorDoc (4 * U) (10 * X1) (100 * X2)).2| ≤ 5 / 10 ^ 3 * (|X2| + |X1 * U| + 1) := by
  have key : ∀ (A B C X Y e : ℝ), |A| ≤ e → |B| ≤ e → |C| ≤ e → |A * X + B * Y + C| ≤ e * (|X| + |Y| + 1) := by
    intro A B C X Y e hA hB hC
    calc |A * X + B * Y + C| ≤ |A * X + B * Y| + |C| := abs_add_le _ _
      _ ≤ |A * X| + |B * Y| + |C| := by gcongr; exact abs_add_le _ _
      _ ≤ e * |X| + e * |Y| + e := by rw [abs_mul, abs_mul]; gcongr
      _ = e * (|X| + |Y| + 1) := by ring
  constructor
  · have := key (10 * (-39.3153) + 10 * (12.345 / 0.314)) (10 * (-32.2293) + 400 * (0.253 / 0.314)) (10 * 19.10828025 - 60 / 0.314) X1 (X2 * U) (2 / 10 ^ 4) (by rw [abs_le]; constructor <;> norm_num)
      (by rw [abs_le]; constructor <;> norm_num) (by rw [abs_le]; constructor <;> norm_num)
    refine le_trans (le_of_eq ?_) this
    congr 1
    simp only [dcMotor, dcMotorDoc]
    ring
  · have := key (100 * (-1.6599) + 100 * (0.00732 / 0.00441)) (100 * 22.9478 - 40 * (0.253 / 0.00441)) (100 * (-3.333333333) + 1.47 / 0.00441) X2 (X1 * U) (5 / 10 ^ 3) (by rw [abs_le]; constructor <;> norm_num)
      (by rw [abs_le]; constructor <;> norm_num) (by rw [abs_le]; constructor <;> norm_num)
    refine le_trans (le_of_eq ?_) this
    congr 1
    simp only [dcMotor, dcMotorDoc]
    ring

/-- **C202 (Van der Pol, input).** For every admissible choice of the controlled coordinates, the control named `ux` acts on the first coordinate and `uy` on the second; a coordinate without control gets none.
Other choices are rejected. -/
theorem C202_vdp_input (coord : String) :
    (vdpNames coord = none ↔ coord ∉ ["x", "y", "both"]) ∧
    ∀ names, vdpNames coord = some names → ∀ (eps : ℝ) (y : ℝ × ℝ) (u : List ℝ), u.length = names.length →
      vanDerPol eps names y u = some (y.2 + ((names.zip u).lookup "ux").getD 0, -y.1 + eps * (1 - y.1 ^ 2) * y.2 + ((names.zip u).lookup "uy").getD 0) := by
  by_cases hx : coord = "x"
  · subst hx
    refine ⟨by decide, ?_⟩
    intro names hn eps y u hu
    have : names = ["ux"] := by
      have : vdpNames "x" = some ["ux"] := by decide
      rw [this] at hn; exact (Option.some.inj hn).symm
    subst this
    obtain ⟨a, rfl⟩ := List.length_eq_one_iff.1 hu
    simp [vanDerPol, vdpInput, List.lookup]
  by_cases hy : coord = "y"
  · subst hy
    refine ⟨by decide, ?_⟩
    intro names hn eps y u hu
    have : names = ["uy"] := by
      have : vdpNames "y" = some ["uy"] := by decide
      rw [this] at hn; exact (Option.some.inj hn).symm
    subst this
    obtain ⟨a, rfl⟩ := List.length_eq_one_iff.1 hu
    simp [vanDerPol, vdpInput, List.lookup]
  by_cases hb : coord = "both"
  · subst hb
    refine ⟨by decide, ?_⟩
    intro names hn eps y u hu
    have : names = ["ux", "uy"] := by
      have : vdpNames "both" = some ["ux", "uy"] := by decide
      rw [this] at hn; exact (Option.some.inj hn).symm
    subst this
    obtain ⟨a, b, rfl⟩ := List.length_eq_two.1 hu
    simp [vanDerPol, vdpInput, List.lookup]
  · simp [vdpNames, hx, hy, hb]

/-- **C202 (Van der Pol, uncontrolled).** Without control the first coordinate solves `x'' = eps (1 - x²) x' - x`, and the origin is the only equilibrium. -/
theorem C202_vdp (eps : ℝ) (y : ℝ → ℝ × ℝ) (h : ∀ t, ∃ v, vanDerPol eps ["ux", "uy"] (y t) [0, 0] = some v ∧ HasDerivAt (fun s => (y s).1) v.1 t ∧ HasDerivAt (fun s => (y s).2) v.2 t) (t : ℝ) :
    HasDerivAt (deriv (fun s => (y s).1)) (eps * (1 - (y t).1 ^ 2) * deriv (fun s => (y s).1) t - (y t).1) t ∧
      ∀ x : ℝ × ℝ, vanDerPol eps ["ux", "uy"] x [0, 0] = some (0, 0) ↔ x = (0, 0) := by
  have hv : ∀ x : ℝ × ℝ, vanDerPol eps ["ux", "uy"] x [0, 0] = some (x.2, -x.1 + eps * (1 - x.1 ^ 2) * x.2) := by
    intro x
    simp [vanDerPol, vdpInput]
  have hd : deriv (fun s => (y s).1) = fun s => (y s).2 := by
    funext s
    obtain ⟨v, h1, h2, -⟩ := h s
    rw [hv] at h1
    rw [h2.deriv, ← Option.some.inj h1]
  constructor
  · obtain ⟨v, h1, -, h3⟩ := h t
    rw [hv] at h1
    rw [hd]
    refine h3.congr_deriv ?_
    rw [← Option.some.inj h1]
    ring
  · intro x
    rw [hv]
    simp only [Option.some.injEq, Prod.mk.injEq]
    constructor
    · rintro ⟨h1, h2⟩
      rw [h1] at h2
      exact Prod.ext (by simpa using h2) h1
    · rintro rfl
      simp

/-- **C202 (Duffing).** Along every solution `x2²/2 + beta x1²/2 + alpha x1⁴/4` changes by the work of the control and the damping, and the equilibria without control are the origin and the points with `alpha x1² = -beta`. -/
theorem C202_duffing (alpha beta delta u : ℝ) (y : ℝ → ℝ × ℝ) (t : ℝ) (h1 : HasDerivAt (fun s => (y s).1) (duffing alpha beta delta (y t) u).1 t)
    (h2 : HasDerivAt (fun s => (y s).2) (duffing alpha beta delta (y t) u).2 t) :
    HasDerivAt (fun s => (y s).2 ^ 2 / 2 + beta * (y s).1 ^ 2 / 2 + alpha * (y s).1 ^ 4 / 4) (u * (y t).2 - delta * (y t).2 ^ 2) t ∧
      ∀ x : ℝ × ℝ, duffing alpha beta delta x 0 = (0, 0) ↔ x.2 = 0 ∧ (x.1 = 0 ∨ alpha * x.1 ^ 2 = -beta) := by
  constructor
  · have hE := (((h2.pow 2).div_const 2).add (((h1.pow 2).const_mul beta).div_const 2)).add (((h1.pow 4).const_mul alpha).div_const 4)
    refine hE.congr_deriv ?_
    simp only [duffing]
    push_cast
    ring
  · intro x
    simp only [duffing, Prod.mk.injEq]
    constructor
    · rintro ⟨h1, h3⟩
      refine ⟨h1, ?_⟩
      rw [h1] at h3
      have : x.1 * (beta + alpha * x.1 ^ 2) = 0 := by linarith
      rcases mul_eq_zero.1 this with h | h
      · exact Or.inl h
      · exact Or.inr (by linarith)
    · rintro ⟨h1, h | h⟩
      · simp [h1, h]
      · refine ⟨h1, ?_⟩
        rw [h1, h]
        ring

/-- non-vacuity of `C202_energy`, `C202_vdp` and `C202_duffing`: systems at rest -/
example : (∃ (p : CartPole2) (y : ℝ → CartState), ∀ t, HasDerivAt (fun s => (y s).xdot) (cartPole2 p (y t) 0).xdot t ∧ HasDerivAt (fun s => (y s).theta) (cartPole2 p (y t) 0).theta t ∧
      HasDerivAt (fun s => (y s).thetadot) (cartPole2 p (y t) 0).thetadot t) ∧
    (∃ y : ℝ → ℝ × ℝ, ∀ t, ∃ v, vanDerPol 1 ["ux", "uy"] (y t) [0, 0] = some v ∧ HasDerivAt (fun s => (y s).1) v.1 t ∧ HasDerivAt (fun s => (y s).2) v.2 t) ∧
    ∃ y : ℝ → ℝ × ℝ, ∀ t, HasDerivAt (fun s => (y s).1) (duffing (-1) 1 0.6 (y t) 0).1 t ∧ HasDerivAt (fun s => (y s).2) (duffing (-1) 1 0.6 (y t) 0).2 t := by
  refine ⟨⟨⟨1, 1, 1, 1, 1⟩, fun _ => ⟨0, 0, 0, 0⟩, fun t => ?_⟩, ⟨fun _ => (0, 0), fun t => ⟨(0, 0), by simp [vanDerPol, vdpInput], hasDerivAt_const _ _, hasDerivAt_const _ _⟩⟩, ⟨fun _ => (1, 0), fun t => ?_⟩⟩
  · refine ⟨?_, hasDerivAt_const t (0 : ℝ), ?_⟩
    · exact (hasDerivAt_const t (0 : ℝ)).congr_deriv (by simp [cartPole2])
    · exact (hasDerivAt_const t (0 : ℝ)).congr_deriv (by simp [cartPole2])
  · refine ⟨(hasDerivAt_const t (1 : ℝ)).congr_deriv (by simp [duffing]), (hasDerivAt_const t (0 : ℝ)).congr_deriv (by simp [duffing])⟩

end Verif.Utils
