import Verif.Utils.Benchmarks
import Mathlib.Analysis.SpecialFunctions.ExpDeriv
import Mathlib.Analysis.SpecialFunctions.Trigonometric.Deriv
import Mathlib.Analysis.Calculus.Deriv.Prod
import Mathlib.Analysis.SpecialFunctions.Sqrt
import Mathlib.Analysis.Real.Pi.Bounds
import Mathlib.Tactic.Abel
import Mathlib.Tactic.FieldSimp
import Mathlib.Tactic.Linarith
import Mathlib.Tactic.LinearCombination
import Mathlib.Tactic.NormNum
import Mathlib.Tactic.Ring
/-! # Properties of the benchmark systems (C140-C146) -/

namespace Verif.Utils

open Real Filter Topology

/-! ### C140: limit cycle -/

theorem norm2_sq (x1 x2 : ℝ) : norm2 x1 x2 ^ 2 = x1 ^ 2 + x2 ^ 2 := sq_sqrt (by positivity)

theorem norm2_nonneg (x1 x2 : ℝ) : 0 ≤ norm2 x1 x2 := sqrt_nonneg _

theorem abs_le_norm2 (x1 x2 : ℝ) : |x1| ≤ norm2 x1 x2 := abs_le_sqrt (by nlinarith [sq_nonneg x2])

/-- **C140 (angle).** For a point that is not (almost) the origin, the angle is in `[0, 2π)` and with it the Cartesian coordinates are recovered. -/
theorem C140_angle (x1 x2 : ℝ) (h : 10 ^ (-15 : ℤ) ≤ norm2 x1 x2) :
    0 ≤ cycleAngle x1 x2 ∧ cycleAngle x1 x2 < 2 * π ∧ cycleCartesian (cycleAngle x1 x2) (norm2 x1 x2) = (x1, x2) := by
  have hpos : 0 < norm2 x1 x2 := lt_of_lt_of_le (by positivity) h
  have habs := abs_le_norm2 x1 x2
  have hq1 : -1 ≤ x1 / norm2 x1 x2 := by rw [le_div_iff₀ hpos]; linarith [neg_abs_le x1]
  have hq2 : x1 / norm2 x1 x2 ≤ 1 := by rw [div_le_one hpos]; linarith [le_abs_self x1]
  have hcos : cos (arccos (x1 / norm2 x1 x2)) = x1 / norm2 x1 x2 := cos_arccos hq1 hq2
  have hsin : norm2 x1 x2 * sin (arccos (x1 / norm2 x1 x2)) = |x2| := by
    rw [sin_arccos]
    have : 1 - (x1 / norm2 x1 x2) ^ 2 = (|x2| / norm2 x1 x2) ^ 2 := by
      rw [div_pow, div_pow, sq_abs, norm2_sq]
      have : x1 ^ 2 + x2 ^ 2 ≠ 0 := by rw [← norm2_sq]; positivity
      field_simp; ring
    rw [this, sqrt_sq (by positivity)]
    field_simp
  unfold cycleAngle cycleCartesian
  rw [if_neg (not_lt.2 h)]
  by_cases hx : x2 < 0
  · simp only [if_pos hx]
    have h0 : 0 < arccos (x1 / norm2 x1 x2) := by
      rw [arccos_pos, div_lt_one hpos]
      by_contra hc
      have h1 : norm2 x1 x2 ^ 2 ≤ x1 ^ 2 := by nlinarith
      rw [norm2_sq] at h1
      nlinarith
    refine ⟨by linarith [arccos_le_pi (x1 / norm2 x1 x2), pi_pos], by linarith, ?_⟩
    rw [cos_two_pi_sub, sin_two_pi_sub, hcos, mul_neg, hsin, abs_of_neg hx]
    rw [Prod.mk.injEq]
    exact ⟨by field_simp, by ring⟩
  · simp only [if_neg hx]
    refine ⟨arccos_nonneg _, by linarith [arccos_le_pi (x1 / norm2 x1 x2), pi_pos], ?_⟩
    rw [hcos, hsin, abs_of_nonneg (not_lt.1 hx), Prod.mk.injEq]
    exact ⟨by field_simp, rfl⟩

theorem cycle_denom {r0 : ℝ} (h : 0 < r0) {t : ℝ} (ht : 0 ≤ t) : 0 < -1 + exp (2 * t) + 1 / r0 ^ 2 := by
  have h1 : 1 ≤ exp (2 * t) := one_le_exp (by linarith)
  have : 0 < 1 / r0 ^ 2 := by positivity
  linarith

/-- **C140 (solution).** The analytical radius starts at `r0`, stays positive, solves `r' = (1 - r²) r` for all times and tends to the limit cycle with radius one. -/
theorem C140_solution {r0 : ℝ} (h : 0 < r0) :
    cycleRadius r0 0 = r0 ∧ (∀ t, 0 ≤ t → 0 < cycleRadius r0 t ∧ HasDerivAt (cycleRadius r0) ((-(cycleRadius r0 t) ^ 2 + 1) * cycleRadius r0 t) t) ∧
      Tendsto (cycleRadius r0) atTop (𝓝 1) := by
  refine ⟨?_, ?_, ?_⟩
  · unfold cycleRadius
    have : -1 + exp (2 * 0) + 1 / r0 ^ 2 = (1 / r0) ^ 2 := by rw [mul_zero, exp_zero]; ring
    rw [this, sqrt_sq (by positivity), exp_zero]
    field_simp
  · intro t ht
    have hd := cycle_denom h ht
    have hs : 0 < √(-1 + exp (2 * t) + 1 / r0 ^ 2) := sqrt_pos.2 hd
    refine ⟨div_pos (exp_pos t) hs, ?_⟩
    have h1 : HasDerivAt (fun t => -1 + exp (2 * t) + 1 / r0 ^ 2) (exp (2 * t) * 2) t := by
      have : HasDerivAt (fun t : ℝ => exp (2 * t)) (exp (2 * t) * (2 * 1)) t := ((hasDerivAt_id t).const_mul 2).exp
      simpa using (this.const_add (-1)).add_const (1 / r0 ^ 2)
    have h2 := (hasDerivAt_exp t).div (h1.sqrt hd.ne') hs.ne'
    refine h2.congr_deriv ?_
    unfold cycleRadius
    have hsq : √(-1 + exp (2 * t) + 1 / r0 ^ 2) ^ 2 = -1 + exp (2 * t) + 1 / r0 ^ 2 := sq_sqrt hd.le
    have he : exp (2 * t) = exp t ^ 2 := by rw [← exp_nat_mul]; norm_num
    generalize √(-1 + exp (2 * t) + 1 / r0 ^ 2) = s at *
    rw [he]
    field_simp
    ring
  · have heq : ∀ t, cycleRadius r0 t = 1 / √(1 + (-1 + 1 / r0 ^ 2) * exp (-(2 * t))) := by
      intro t
      unfold cycleRadius
      have : -1 + exp (2 * t) + 1 / r0 ^ 2 = exp t ^ 2 * (1 + (-1 + 1 / r0 ^ 2) * exp (-(2 * t))) := by
        have h1 : exp t ^ 2 = exp (2 * t) := by rw [← exp_nat_mul]; norm_num
        have h2 : exp (2 * t) * exp (-(2 * t)) = 1 := by rw [← exp_add]; simp
        rw [h1]
        linear_combination (-(-1 + 1 / r0 ^ 2)) * h2
      rw [this, sqrt_mul (by positivity), sqrt_sq (exp_pos t).le, div_mul_eq_div_div, div_self (exp_pos t).ne']
    have hlim : Tendsto (fun t : ℝ => 1 + (-1 + 1 / r0 ^ 2) * exp (-(2 * t))) atTop (𝓝 1) := by
      have h1 : Tendsto (fun t : ℝ => exp (-(2 * t))) atTop (𝓝 0) := tendsto_exp_neg_atTop_nhds_zero.comp (tendsto_id.const_mul_atTop (by norm_num : (0 : ℝ) < 2))
      have h3 := (h1.const_mul (-1 + 1 / r0 ^ 2)).const_add 1
      rwa [mul_zero, add_zero] at h3
    have h2 : Tendsto (fun t : ℝ => 1 / √(1 + (-1 + 1 / r0 ^ 2) * exp (-(2 * t)))) atTop (𝓝 (1 / √1)) :=
      tendsto_const_nhds.div hlim.sqrt (by simp)
    rw [sqrt_one, div_one] at h2
    exact h2.congr (fun t => (heq t).symm)

theorem linspaceTime_eq (dt : ℝ) {n i : Nat} (hi : i < n) : linspaceTime dt n i = i * dt := by
  unfold linspaceTime
  split
  · have : i = 0 := by omega
    simp [this]
  · have : (n : ℝ) - 1 ≠ 0 := by
      have : (2 : ℝ) ≤ n := by exact_mod_cast (by omega : 2 ≤ n)
      linarith
    field_simp

/-- **C140 (rows).** Row `i` is the state at time `i·dt`: the angle is the starting angle plus `i·dt / eps` in both methods. -/
theorem C140_rows (eps x1 x2 dt : ℝ) {n i : Nat} (hi : i < n) :
    (cycleAnalytical eps x1 x2 dt n i).1 = cycleAngle x1 x2 + i * dt / eps ∧ (cycleEuler eps x1 x2 dt i).1 = cycleAngle x1 x2 + i * dt / eps ∧
      (cycleAnalytical eps x1 x2 dt n i).2 = cycleRadius (norm2 x1 x2 + 10 ^ (-10 : ℤ)) (i * dt) := by
  refine ⟨?_, ?_, ?_⟩
  · simp only [cycleAnalytical, linspaceTime_eq dt hi]; ring
  · clear hi
    induction i with
    | zero => simp [cycleEuler]
    | succ i ih => simp only [cycleEuler, ih]; push_cast; ring
  · simp only [cycleAnalytical, linspaceTime_eq dt hi]

/-- **C140 (finite differences).** Each step follows the tangent of the exact solution that starts at the current radius; the origin stays where it is. -/
theorem C140_euler (eps x1 x2 dt : ℝ) (i : Nat) :
    (0 < (cycleEuler eps x1 x2 dt i).2 → ∃ v, HasDerivAt (cycleRadius (cycleEuler eps x1 x2 dt i).2) v 0 ∧ (cycleEuler eps x1 x2 dt (i + 1)).2 = (cycleEuler eps x1 x2 dt i).2 + dt * v) ∧
      ((cycleEuler eps x1 x2 dt i).2 = 0 → (cycleEuler eps x1 x2 dt (i + 1)).2 = 0) ∧ ((cycleEuler eps x1 x2 dt i).2 = 1 → (cycleEuler eps x1 x2 dt (i + 1)).2 = 1) := by
  have hs : (cycleEuler eps x1 x2 dt (i + 1)).2 = (cycleEuler eps x1 x2 dt i).2 + dt * ((-(cycleEuler eps x1 x2 dt i).2 ^ 2 + 1) * (cycleEuler eps x1 x2 dt i).2) := rfl
  refine ⟨fun h => ?_, fun h => ?_, fun h => ?_⟩
  · obtain ⟨h0, hd, -⟩ := C140_solution h
    refine ⟨_, (hd 0 le_rfl).2, ?_⟩
    rw [h0, hs]
  · rw [hs, h]; ring
  · rw [hs, h]; ring

example : 0 < (cycleEuler 1 1 0 1 0).2 := by simp [cycleEuler, norm2]

/-- **C140 is false for the start.** The analytical solution never starts at the initial state: its first radius is too large by `1e-10`. -/
theorem C140_start_violated (eps x1 x2 dt : ℝ) {n : Nat} (hn : 0 < n) : (cycleAnalytical eps x1 x2 dt n 0).2 = norm2 x1 x2 + 10 ^ (-10 : ℤ) := by
  rw [(C140_rows eps x1 x2 dt hn).2.2]
  have := (C140_solution (r0 := norm2 x1 x2 + 10 ^ (-10 : ℤ)) (by have := norm2_nonneg x1 x2; positivity)).1
  simpa using this

example : (10 : ℝ) ^ (-15 : ℤ) ≤ norm2 3 (-4) := by
  have : norm2 3 (-4) = 5 := by rw [norm2, show (3 : ℝ) ^ 2 + (-4) ^ 2 = 5 ^ 2 by norm_num, sqrt_sq (by norm_num)]
  rw [this]; norm_num

/-! ### C141: Hopf system -/

theorem arctan2_cos_sin {r θ : ℝ} (hr : 0 < r) (h1 : -π < θ) (h2 : θ ≤ π) : arctan2 (r * sin θ) (r * cos θ) = θ := by
  unfold arctan2
  have : (⟨r * cos θ, r * sin θ⟩ : ℂ) = r * (Complex.cos θ + Complex.sin θ * Complex.I) := by
    apply Complex.ext <;> simp [Complex.cos_ofReal_re, Complex.sin_ofReal_re, Complex.cos_ofReal_im, Complex.sin_ofReal_im]
  rw [this]
  exact Complex.arg_mul_cos_add_sin_mul_I hr ⟨h1, h2⟩

theorem norm2_complex (x1 x2 : ℝ) : ‖(⟨x1, x2⟩ : ℂ)‖ = norm2 x1 x2 := by
  rw [Complex.norm_eq_sqrt_sq_add_sq]; rfl

/-- **C141 (partial: the first coordinate is not zero).** The returned radius is the distance from the origin, and the polar coordinates belong to the Cartesian ones. -/
theorem C141_polar_partial (x : ℝ × ℝ) (h : x.1 ≠ 0) :
    ∃ theta, hopfPolar x = (some (norm2 x.1 x.2), theta) ∧ -π < theta ∧ theta ≤ π ∧ fromPolar (norm2 x.1 x.2, theta) = x := by
  have hz : (⟨x.1, x.2⟩ : ℂ) ≠ 0 := fun h0 => h (by simpa using congrArg Complex.re h0)
  have hcos : cos (arctan2 x.2 x.1) = x.1 / norm2 x.1 x.2 := by
    unfold arctan2; rw [Complex.cos_arg hz, norm2_complex]
  have hsin : sin (arctan2 x.2 x.1) = x.2 / norm2 x.1 x.2 := by
    unfold arctan2; rw [Complex.sin_arg, norm2_complex]
  have hpos : 0 < norm2 x.1 x.2 := lt_of_lt_of_le (abs_pos.2 h) (abs_le_norm2 _ _)
  refine ⟨arctan2 x.2 x.1, ?_, Complex.neg_pi_lt_arg _, Complex.arg_le_pi _, ?_⟩
  · unfold hopfPolar
    simp only [hcos]
    rw [if_neg (div_ne_zero h hpos.ne')]
    congr 2
    field_simp
  · unfold fromPolar
    simp only [hcos, hsin]
    apply Prod.ext
    · show norm2 x.1 x.2 * (x.1 / norm2 x.1 x.2) = x.1
      field_simp
    · show norm2 x.1 x.2 * (x.2 / norm2 x.1 x.2) = x.2
      field_simp

/-- **C141 is false on the second axis.** There the radius is a quotient with the denominator zero (in floating point numbers the result is 0, because the cosine is not exactly zero). -/
theorem C141_polar_violated (a : ℝ) (h : a ≠ 0) : (hopfPolar (0, a)).1 = none := by
  have hz : (⟨0, a⟩ : ℂ) ≠ 0 := fun h0 => h (by simpa using congrArg Complex.im h0)
  have hcos : cos (arctan2 a 0) = 0 := by
    unfold arctan2; rw [Complex.cos_arg hz]; simp
  simp [hopfPolar, hcos]

/-- **C141 (data frame of polar coordinates).** The simulation starts at the Cartesian coordinates of the initial conditions; the data frame of the caller contains these coordinates afterwards. -/
theorem C141_frame (rows : List (ℝ × ℝ)) : (hopfStart true (.frame rows)).1 = rows.map (fun p => (p.1 * cos p.2, p.1 * sin p.2)) ∧
    (hopfStart true (.frame rows)).2 = .frame (rows.map (fun p => (p.1 * cos p.2, p.1 * sin p.2))) := ⟨rfl, rfl⟩

/-- **C141 is false for arrays of polar coordinates.** They are simulated as if they were Cartesian: radius 1 and angle π start at (1, π) instead of (-1, 0). -/
theorem C141_array_violated : (hopfStart true (.array [(1, π)])).1 = [(1, π)] ∧ fromPolar (1, π) = (-1, 0) := by
  refine ⟨rfl, ?_⟩
  simp [fromPolar]

/-- **C141 (flow).** In polar coordinates the system is `r' = r (mu - r²)` and `θ' = 1`. -/
theorem C141_flow (mu : ℝ) (r θ : ℝ → ℝ) (t : ℝ) (hr : HasDerivAt r (r t * (mu - r t ^ 2)) t) (hθ : HasDerivAt θ 1 t) :
    HasDerivAt (fun s => fromPolar (r s, θ s)) (hopf mu (fromPolar (r t, θ t))) t := by
  have h1 := hr.mul hθ.cos
  have h2 := hr.mul hθ.sin
  have h := h1.prodMk h2
  have he : hopf mu (fromPolar (r t, θ t)) =
      (r t * (mu - r t ^ 2) * cos (θ t) + r t * (-sin (θ t) * 1), r t * (mu - r t ^ 2) * sin (θ t) + r t * (cos (θ t) * 1)) := by
    have hsc := sin_sq_add_cos_sq (θ t)
    unfold hopf fromPolar
    rw [Prod.mk.injEq]
    constructor
    · simp only
      linear_combination (-(r t ^ 3 * cos (θ t))) * hsc
    · simp only
      linear_combination (-(r t ^ 3 * sin (θ t))) * hsc
  rw [he]
  exact h

example : ∃ theta, hopfPolar (-3, 4) = (some (norm2 (-3) 4), theta) := by
  obtain ⟨theta, h, -⟩ := C141_polar_partial (-3, 4) (by norm_num)
  exact ⟨theta, h⟩

/-! ### C142, C143: inverted pendulum -/

/-- **C142 (trigonometric coordinates).** The angle and the angular velocity are recovered from their trigonometric coordinates iff both are in `(-π, π]`. -/
theorem C142_roundtrip (y : CartState) : fromTrig (toTrig y) = y ↔ (-π < y.theta ∧ y.theta ≤ π) ∧ (-π < y.thetadot ∧ y.thetadot ≤ π) := by
  have key : ∀ a : ℝ, arctan2 (sin a) (cos a) = a ↔ -π < a ∧ a ≤ π := by
    intro a
    constructor
    · intro h
      have h1 : -π < arctan2 (sin a) (cos a) := Complex.neg_pi_lt_arg _
      have h2 : arctan2 (sin a) (cos a) ≤ π := Complex.arg_le_pi _
      rw [h] at h1 h2
      exact ⟨h1, h2⟩
    · rintro ⟨h1, h2⟩
      have := arctan2_cos_sin (r := 1) one_pos h1 h2
      simpa using this
  cases y
  simp [fromTrig, toTrig, key]

/-- **C142 is false for larger angular velocities**: 4 rad/s comes back as a different number. -/
theorem C142_violated : (fromTrig (toTrig ⟨0, 0, 0, 4⟩)).thetadot ≠ 4 := by
  intro h
  have := (C142_roundtrip ⟨0, 0, 0, 4⟩).1 (by
    have h0 : arctan2 (sin 0) (cos 0) = 0 := by
      have := arctan2_cos_sin (r := 1) (θ := 0) one_pos (by linarith [pi_pos]) pi_pos.le
      simpa using this
    simp only [fromTrig, toTrig] at h ⊢
    rw [h, h0])
  have h4 : (4 : ℝ) ≤ π := this.2.2
  linarith [pi_lt_d2]

/-- The right-hand side that the documentation describes: the force on the cart is `gain * u`. -/
noncomputable def cartPoleDoc (p : CartPole) (y : CartState) (u : ℝ) : CartState :=
  let alpha := p.M + p.m * sin y.theta ^ 2
  ⟨y.xdot,
    (p.gain * u + p.m * p.g * sin y.theta * cos y.theta - p.m * p.length * y.thetadot ^ 2 * sin y.theta - 2 * p.friction * y.xdot) / alpha,
    y.thetadot,
    (p.gain * u * cos y.theta - p.m * p.length * y.thetadot ^ 2 * sin y.theta * cos y.theta + (p.M + p.m) * p.g * sin y.theta - 2 * p.friction * y.xdot * cos y.theta) / (p.length * alpha)⟩

/-- **C143 is false (rest).** Without voltage, the system at rest in the upright position is accelerated, for all parameters with a gain and a mass of the cart; with the documented force it stays at rest. -/
theorem C143_rest_violated (p : CartPole) (hg : p.gain ≠ 0) (hM : p.M ≠ 0) : (cartPole p ⟨0, 0, 0, 0⟩ 0).xdot ≠ 0 ∧ cartPoleDoc p ⟨0, 0, 0, 0⟩ 0 = ⟨0, 0, 0, 0⟩ := by
  refine ⟨?_, ?_⟩
  · simp [cartPole, hg, hM]
  · simp [cartPoleDoc]

/-- **C143 is false (input).** The voltage has no effect on the angular acceleration; with the documented force it has, unless the pendulum is horizontal. -/
theorem C143_input_violated (p : CartPole) (y : CartState) (u v : ℝ) : (cartPole p y u).thetadot = (cartPole p y v).thetadot ∧
    (p.gain ≠ 0 → p.length * (p.M + p.m * sin y.theta ^ 2) ≠ 0 → cos y.theta ≠ 0 → u ≠ v → (cartPoleDoc p y u).thetadot ≠ (cartPoleDoc p y v).thetadot) := by
  refine ⟨rfl, fun hg hl hc huv h => huv ?_⟩
  simp only [cartPoleDoc] at h
  rw [div_left_inj' hl] at h
  have : p.gain * cos y.theta * (u - v) = 0 := by linarith
  rcases mul_eq_zero.1 this with h1 | h1
  · exact absurd h1 (mul_ne_zero hg hc)
  · linarith

/-- **C143 (partial: unit voltage).** The motion of the cart is the documented one only in the sense that `u` acts as additional force on top of the constant force `gain`: the difference to the documented right-hand side is
`(gain + u - gain * u) / alpha` for the velocity and `gain (1 - u) cos θ / (l alpha)` for the angular velocity. -/
theorem C143_partial (p : CartPole) (y : CartState) (u : ℝ) (hl : p.length ≠ 0) (ha : p.M + p.m * sin y.theta ^ 2 ≠ 0) :
    (cartPole p y u).x = (cartPoleDoc p y u).x ∧ (cartPole p y u).theta = (cartPoleDoc p y u).theta ∧
      (cartPole p y u).xdot - (cartPoleDoc p y u).xdot = (p.gain + u - p.gain * u) / (p.M + p.m * sin y.theta ^ 2) ∧
      (cartPole p y u).thetadot - (cartPoleDoc p y u).thetadot = p.gain * (1 - u) * cos y.theta / (p.length * (p.M + p.m * sin y.theta ^ 2)) := by
  refine ⟨rfl, rfl, ?_, ?_⟩
  · simp only [cartPole, cartPoleDoc]; field_simp; ring
  · simp only [cartPole, cartPoleDoc]; field_simp; ring

/-! ### C144: pendulum -/

/-- **C144 (energy).** Along every solution the energy `ω²/2 - g/l cos θ` changes by the friction only; without friction it is constant. -/
theorem C144_energy (mass length friction gravity : ℝ) (x : ℝ → ℝ × ℝ) (t : ℝ) (h1 : HasDerivAt (fun s => (x s).1) (pendulum mass length friction gravity (x t)).1 t)
    (h2 : HasDerivAt (fun s => (x s).2) (pendulum mass length friction gravity (x t)).2 t) :
    HasDerivAt (fun s => (x s).2 ^ 2 / 2 - gravity / length * cos (x s).1) (-(friction / mass) * (x t).2 ^ 2) t := by
  have h3 := (h2.pow 2).div_const 2
  have h4 := (h1.cos).const_mul (gravity / length)
  have h5 := h3.sub h4
  refine h5.congr_deriv ?_
  simp only [pendulum]
  push_cast
  ring

/-- **C144 (position).** The mass has the distance of the rod length from the fixation point `(0, length)`, and is at the origin for the angle zero. -/
theorem C144_position (length theta : ℝ) :
    (pendulumCartesian length theta).1 ^ 2 + ((pendulumCartesian length theta).2 - length) ^ 2 = length ^ 2 ∧ pendulumCartesian length 0 = (0, 0) := by
  refine ⟨?_, ?_⟩
  · simp only [pendulumCartesian]
    have := sin_sq_add_cos_sq (theta - π / 2)
    linear_combination length ^ 2 * this
  · simp [pendulumCartesian]

/-! ### C145: Burgers' equation -/

variable {n : Nat} [NeZero n]

theorem sum_next (f : Fin n → ℝ) : ∑ i, f (nextNode i) = ∑ i, f i := Equiv.sum_comp (Equiv.addRight (1 : Fin n)) f

theorem sum_prev (f : Fin n → ℝ) : ∑ i, f (prevNode i) = ∑ i, f i := Equiv.sum_comp (Equiv.subRight (1 : Fin n)) f

theorem prev_next (i : Fin n) : prevNode (nextNode i) = i := by simp [prevNode, nextNode]

/-- **C145 (conservation).** The total of the solution changes by the control only. -/
theorem C145_mass (nu dx : ℝ) (y u : Fin n → ℝ) : ∑ i, burger nu dx y u i = ∑ i, u i := by
  have h1 : ∑ i, y (prevNode i) * y i = ∑ i, y i * y (nextNode i) := by
    rw [← sum_next (fun i => y (prevNode i) * y i)]
    simp only [prev_next]
  have h2 : ∀ i, burger nu dx y u i = (1 / (2 * dx)) * (y (prevNode i) * y i) - (1 / (2 * dx)) * (y i * y (nextNode i)) + (nu / dx ^ 2) * (y (prevNode i) - 2 * y i + y (nextNode i)) + u i := by
    intro i; unfold burger; ring
  simp only [h2, Finset.sum_add_distrib, Finset.sum_sub_distrib, ← Finset.mul_sum, h1, sum_prev y, sum_next y]
  ring

/-- **C145 (symmetry).** Shifting the nodes cyclically shifts the right-hand side; constant states do not change without control. -/
theorem C145_symmetry (nu dx : ℝ) (y u : Fin n → ℝ) (k i : Fin n) : burger nu dx (fun j => y (j + k)) (fun j => u (j + k)) i = burger nu dx y u (i + k) := by
  have h1 : prevNode i + k = prevNode (i + k) := by simp only [prevNode]; abel
  have h2 : nextNode i + k = nextNode (i + k) := by simp only [nextNode]; abel
  simp only [burger, h1, h2]

theorem C145_constant (nu dx c : ℝ) (i : Fin n) : burger nu dx (fun _ => c) (fun _ => 0) i = 0 := by
  unfold burger; ring

/-- **C145 is false for the period.** The nodes `0, ..., 2π` contain both ends of the period, so the period of the discretised equation is `2π n/(n-1)` and not `2π`. -/
theorem C145_period_violated (m : Nat) (hm : 2 ≤ m) : m * burgerDx m = 2 * π * m / (m - 1) ∧ m * burgerDx m ≠ 2 * π := by
  have h1 : (m : ℝ) - 1 ≠ 0 := by
    have : (2 : ℝ) ≤ m := by exact_mod_cast hm
    linarith
  refine ⟨by unfold burgerDx; ring, ?_⟩
  unfold burgerDx
  intro h
  have h2 : (m : ℝ) * (2 * π) = 2 * π * (m - 1) := by field_simp at h; linarith
  have := pi_pos
  nlinarith

/-- **C145 is false for the implicit step.** The residual does not contain the state before the step: it vanishes exactly for the stationary states, for every step size. -/
theorem C145_step_violated (nu dx dt : ℝ) (hdt : dt ≠ 0) (x u : Fin n → ℝ) :
    (∀ i, burgerResidual nu dx dt x u i = -(dt * burger nu dx x u i)) ∧ ((∀ i, burgerResidual nu dx dt x u i = 0) ↔ ∀ i, burger nu dx x u i = 0) := by
  have h : ∀ i, burgerResidual nu dx dt x u i = -(dt * burger nu dx x u i) := by
    intro i; simp only [burgerResidual, burger]; ring
  refine ⟨h, ?_⟩
  simp [h, hdt]

/-! ### C146: equilibria -/

/-- **C146 (three points).** `ThreeStablePoints` has exactly three equilibria. -/
theorem C146_three (x : ℝ × ℝ) : threePoints x = (0, 0) ↔ x = (0, 0) ∨ x = (√2, 1) ∨ x = (-√2, 1) := by
  obtain ⟨a, b⟩ := x
  simp only [threePoints, Prod.mk.injEq]
  have h2 : √2 ^ 2 = (2 : ℝ) := sq_sqrt (by norm_num)
  constructor
  · rintro ⟨h3, h4⟩
    by_cases ha : a = 0
    · left
      exact ⟨ha, by rw [ha] at h4; linarith⟩
    · right
      have hb : b = 1 := by
        have : a * (1 - b) = 0 := by linarith
        rcases mul_eq_zero.1 this with h | h
        · exact absurd h ha
        · linarith
      have : (a - √2) * (a + √2) = 0 := by rw [hb] at h4; linear_combination h4 - h2
      rcases mul_eq_zero.1 this with h | h
      · exact .inl ⟨by linarith, hb⟩
      · exact .inr ⟨by linarith, hb⟩
  · rintro (⟨rfl, rfl⟩ | ⟨rfl, rfl⟩ | ⟨rfl, rfl⟩)
    · norm_num
    · constructor <;> linarith
    · constructor <;> nlinarith

/-- **C146 is false for the stability.** The linearisation at the origin has the eigenvalue 1 with eigenvector (1, 0): the origin is not a stable point. -/
theorem C146_stable_violated : HasDerivAt (fun s : ℝ => threePoints (s, 0)) ((1 : ℝ) • (1, 0)) 0 := by
  have h1 : HasDerivAt (fun s : ℝ => s - s * 0) 1 0 := by
    have := hasDerivAt_id' (0 : ℝ)
    simpa using this
  have h2 : HasDerivAt (fun s : ℝ => s ^ 2 - 2 * 0) 0 0 := by simpa using (hasDerivAt_pow 2 (0 : ℝ)).sub_const 0
  have h3 := h1.prodMk h2
  rw [one_smul]
  exact h3

/-- **C146 (Lorenz).** For `rho < 1` the origin is the only equilibrium; for `rho > 1` there are exactly two more. -/
theorem C146_lorenz (sigma rho beta : ℝ) (hs : sigma ≠ 0) (hb : 0 < beta) (y : ℝ × ℝ × ℝ) :
    (rho < 1 → (lorenz sigma rho beta y = (0, 0, 0) ↔ y = (0, 0, 0))) ∧
    (1 < rho → (lorenz sigma rho beta y = (0, 0, 0) ↔ y = (0, 0, 0) ∨ y = (√(beta * (rho - 1)), √(beta * (rho - 1)), rho - 1) ∨ y = (-√(beta * (rho - 1)), -√(beta * (rho - 1)), rho - 1))) := by
  obtain ⟨a, b, c⟩ := y
  have key : lorenz sigma rho beta (a, b, c) = (0, 0, 0) ↔ b = a ∧ (a = 0 ∧ c = 0 ∨ c = rho - 1 ∧ a ^ 2 = beta * (rho - 1)) := by
    simp only [lorenz, Prod.mk.injEq]
    constructor
    · rintro ⟨h1, h2, h3⟩
      have hba : b = a := by
        rcases mul_eq_zero.1 h1 with h | h
        · exact absurd h hs
        · linarith
      subst hba
      refine ⟨rfl, ?_⟩
      have : b * (rho - c - 1) = 0 := by linarith
      rcases mul_eq_zero.1 this with h | h
      · left
        subst h
        refine ⟨rfl, ?_⟩
        have : beta * c = 0 := by linarith
        exact (mul_eq_zero.1 this).resolve_left hb.ne'
      · right
        have hc : c = rho - 1 := by linarith
        exact ⟨hc, by rw [hc] at h3; linarith⟩
    · rintro ⟨rfl, ⟨rfl, rfl⟩ | ⟨rfl, h⟩⟩
      · simp
      · refine ⟨by ring, by ring, by linarith⟩
  rw [key]
  refine ⟨fun h => ?_, fun h => ?_⟩
  · constructor
    · rintro ⟨rfl, ⟨rfl, rfl⟩ | ⟨rfl, h2⟩⟩
      · rfl
      · nlinarith [sq_nonneg b]
    · rintro h2
      simp only [Prod.mk.injEq] at h2
      obtain ⟨rfl, rfl, rfl⟩ := h2
      exact ⟨rfl, .inl ⟨rfl, rfl⟩⟩
  · have hsq : √(beta * (rho - 1)) ^ 2 = beta * (rho - 1) := sq_sqrt (mul_nonneg hb.le (by linarith))
    simp only [Prod.mk.injEq]
    constructor
    · rintro ⟨rfl, ⟨rfl, rfl⟩ | ⟨rfl, h2⟩⟩
      · exact .inl ⟨rfl, rfl, rfl⟩
      · right
        rw [← hsq] at h2
        rcases sq_eq_sq_iff_eq_or_eq_neg.1 h2 with h3 | h3
        · exact .inl ⟨h3, h3, rfl⟩
        · exact .inr ⟨h3, h3, rfl⟩
    · rintro (⟨rfl, rfl, rfl⟩ | ⟨rfl, rfl, rfl⟩ | ⟨rfl, rfl, rfl⟩)
      · exact ⟨rfl, .inl ⟨rfl, rfl⟩⟩
      · exact ⟨rfl, .inr ⟨rfl, hsq⟩⟩
      · exact ⟨rfl, .inr ⟨rfl, by rw [neg_sq, hsq]⟩⟩

/-- **C146 (closed curve).** For integer constants the curve is closed: it has the period `2π`. -/
theorem C146_closed (c : Fin 5 → ℤ) (t : ℝ) : closedCurve (fun i => c i) (t + 2 * π) = closedCurve (fun i => c i) t := by
  have hs : ∀ k : ℤ, sin (k * (t + 2 * π)) = sin (k * t) := fun k => by rw [mul_add]; exact sin_add_int_mul_two_pi _ k
  have hc : ∀ k : ℤ, cos (k * (t + 2 * π)) = cos (k * t) := fun k => by rw [mul_add]; exact cos_add_int_mul_two_pi _ k
  simp only [closedCurve, hs, hc]

/-- **C146 (closed curve, symmetry).** The curve passes through the origin at time zero and is symmetric under the rotation by 180° around the second axis; there its velocity is `(c₀, 0, c₄)`. -/
theorem C146_symmetric (c : Fin 5 → ℝ) (t : ℝ) :
    closedCurve c 0 = (0, 0, 0) ∧ closedCurve c (-t) = (-(closedCurve c t).1, (closedCurve c t).2.1, -(closedCurve c t).2.2) ∧
      HasDerivAt (fun t => (closedCurve c t).1) (c 0) 0 ∧ HasDerivAt (fun t => (closedCurve c t).2.1) 0 0 ∧ HasDerivAt (fun t => (closedCurve c t).2.2) (c 4) 0 := by
  have hsin : ∀ a : ℝ, HasDerivAt (fun t => sin (a * t)) a 0 := by
    intro a
    have h := ((hasDerivAt_id (0 : ℝ)).const_mul a).sin
    refine h.congr_deriv ?_
    simp
  have hcos : ∀ a : ℝ, HasDerivAt (fun t => cos (a * t)) 0 0 := by
    intro a
    have h := ((hasDerivAt_id (0 : ℝ)).const_mul a).cos
    refine h.congr_deriv ?_
    simp
  refine ⟨by simp [closedCurve], by simp [closedCurve], ?_, ?_, hsin _⟩
  · refine ((hsin (c 0)).mul (hcos (c 1))).congr_deriv ?_
    simp
  · refine ((hsin (c 2)).mul (hsin (c 3))).congr_deriv ?_
    simp

end Verif.Utils
