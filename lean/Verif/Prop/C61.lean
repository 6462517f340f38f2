import Verif.Proof.Eos

/-! # C61: the equations of state -/

set_option autoImplicit false

namespace Gandalf
open Eos IdealGas

variable {n : ℕ}

/-- After `ComputeThermalProperties` the state is one of an ideal gas, `EntropicFunction` is its entropy,
`InternalEnergyFromPressure` gives back the energy, the conserved density and momentum are those of the motion, the conserved energy density is internal plus kinetic, and
doing it again changes nothing. -/
theorem C61_ideal_gas (e : Eos n) (he : Chosen n e) (q : Proxy n) (hr : 0 < q.rho) (hg : e.gamma ≠ 1) :
    energyLaw e.gamma (thermal e q).1.p q.rho (thermal e q).1.u ∧
    entropyLaw e.gamma (thermal e q).1.p q.rho (e.EntropicFunction (thermal e q).1) ∧
    e.InternalEnergyFromPressure (thermal e q).1 = (thermal e q).1.u ∧
    (conserved (thermal e q).1).1 = q.rho ∧ (∀ k, (conserved (thermal e q).1).2.1 k / q.rho = q.v k) ∧
    (conserved (thermal e q).1).2.2 = q.rho * ((thermal e q).1.u + 1 / 2 * ∑ k, q.v k ^ 2) ∧
    thermal e (thermal e q).1 = thermal e q := by
  have hP : ∀ x, e.Pressure x = basePressure e.gamma x := by
    intro x; cases he <;> rfl
  have hA : ∀ x, e.EntropicFunction x = entropic e.gamma x := by
    intro x; cases he <;> rfl
  have hp : ∀ (x : Proxy n) (p : ℝ), e.SpecificInternalEnergy { x with p := p } = e.SpecificInternalEnergy x := by
    intro x p; cases he <;> rfl
  have hs : ∀ (x : Proxy n) (p : ℝ), e.SoundSpeed { x with p := p } = e.SoundSpeed x := by
    intro x p; cases he <;> rfl
  have hu : ∀ (x : Proxy n), e.SpecificInternalEnergy { x with u := e.SpecificInternalEnergy x } =
      e.SpecificInternalEnergy x := by
    intro x
    cases he <;> first | rfl | skip
    all_goals
      simp only [ionising, adiabatic, isothermal, barotropic]
      split_ifs <;> simp_all
  have hg' : e.gamma - 1 ≠ 0 := sub_ne_zero.mpr hg
  have e1 : (thermal e q).1.p = (e.gamma - 1) * q.rho * (thermal e q).1.u := by
    simp only [thermal, hP, basePressure]
  refine ⟨e1, ?_, ?_, rfl, fun k => mul_div_cancel_left₀ _ hr.ne', ?_, ?_⟩
  · have := entropic_law e.gamma (thermal e q).1 hr
    rw [hA, e1]
    exact this
  · unfold Eos.InternalEnergyFromPressure
    rw [e1]
    have : (thermal e q).1.rho = q.rho := rfl
    rw [this]
    field_simp
  · rw [conserved_energy]; rfl
  · have e2 : ∀ p : ℝ, e.SpecificInternalEnergy
        { q with
          u := e.SpecificInternalEnergy q
          p := p } = e.SpecificInternalEnergy q := by
      intro p
      have h1 := hp { q with u := e.SpecificInternalEnergy q } p
      exact h1.trans (hu q)
    have e4 : ∀ p : ℝ, e.SoundSpeed
        { q with
          u := e.SpecificInternalEnergy q
          p := p } = e.SoundSpeed { q with u := e.SpecificInternalEnergy q } :=
      fun p => hs { q with u := e.SpecificInternalEnergy q } p
    simp only [thermal, e2, e4, hP, basePressure]

/-- For all equations of state with a temperature law, neutral gas obeys the ideal gas law with that temperature and
mean molecular weight. (`C61_adiabatic_temperature_fails` for the others.) -/
theorem C61_temperature_partial (g t mu : ℝ) (hg : g ≠ 1) (hmu : mu ≠ 0) (q : Proxy n) :
    (∀ e : Eos n, e = isothermal g t mu ∨ (∃ rb, e = barotropic g t mu rb) ∨ (∃ rb, e = barotropic2 g t mu rb) ∨
        (∃ tl tm st, e = locallyIsothermal g t mu tl tm st) ∨ (∃ a b c st, e = discLocallyIsothermal g mu a b c st) →
      temperatureLaw mu (thermal e q).1.p q.rho (e.Temperature (thermal e q).1)) ∧
    (∀ e : Eos n, e = isothermal g t mu ∨ (∃ rb, e = barotropic g t mu rb) → q.ionstate = 0 →
      temperatureLaw mu (thermal (ionising e) q).1.p q.rho ((ionising e).Temperature (thermal (ionising e) q).1)) := by
  have hg' : g - 1 ≠ 0 := sub_ne_zero.mpr hg
  refine ⟨?_, ?_⟩
  · rintro e (rfl | ⟨rb, rfl⟩ | ⟨rb, rfl⟩ | ⟨tl, tm, st, rfl⟩ | ⟨a, b, c, st, rfl⟩)
    · simp only [temperatureLaw, thermal, isothermal, basePressure]; field_simp
    · simp only [temperatureLaw, thermal, barotropic, basePressure]; field_simp
    · simp only [temperatureLaw, thermal, barotropic2, basePressure]
      by_cases h : q.rho < rb
      · simp only [h, if_true]; field_simp
      · simp only [h, if_false]; field_simp
    · simp only [temperatureLaw, thermal, locallyIsothermal, basePressure]; field_simp
    · simp only [temperatureLaw, thermal, discLocallyIsothermal, basePressure]; field_simp
  · rintro e (rfl | ⟨rb, rfl⟩) hi
    · simp only [temperatureLaw, thermal, ionising, isothermal, basePressure, hi]; simp; field_simp
    · simp only [temperatureLaw, thermal, ionising, barotropic, basePressure, hi]; simp; field_simp

/-- Violated: the temperature of the adiabatic gas ignores the mean molecular weight, so for gas with pressure it is
right only if `mu_bar` is one. -/
theorem C61_adiabatic_temperature_fails (g mu : ℝ) (q : Proxy n) (hr : 0 < q.rho) (hg : 1 < g) (hu : 0 < q.u) :
    temperatureLaw mu (thermal (adiabatic g mu : Eos n) q).1.p q.rho
      ((adiabatic g mu : Eos n).Temperature (thermal (adiabatic g mu) q).1) ↔ mu = 1 := by
  simp only [temperatureLaw, thermal, adiabatic, basePressure]
  have h : (g - 1) * q.rho * q.u ≠ 0 := by
    have := sub_pos.mpr hg
    positivity
  constructor
  · intro h1
    have : (mu - 1) * ((g - 1) * q.rho * q.u) = 0 := by linear_combination h1
    rcases mul_eq_zero.mp this with h2 | h2
    · linarith
    · exact absurd h2 h
  · rintro rfl; ring

/-- Violated: the temperature of ionised gas stays that of the neutral gas. -/
theorem C61_ionised_temperature_fails (g t mu : ℝ) (q : Proxy n) (hr : 0 < q.rho) (hg : 1 < g) (hmu : 0 < mu)
    (hi : q.ionstate ≠ 0) (hu : t / (g - 1) / mu < q.u) :
    (ionising (isothermal g t mu : Eos n)).Temperature (thermal (ionising (isothermal g t mu)) q).1 = t ∧
    ¬ temperatureLaw mu (thermal (ionising (isothermal g t mu)) q).1.p q.rho t := by
  refine ⟨rfl, ?_⟩
  have h := sub_pos.mpr hg
  have e : (thermal (ionising (isothermal g t mu)) q).1.p = (g - 1) * q.rho * q.u := by
    simp [thermal, ionising, isothermal, basePressure, hi, hu]
  rw [e]
  intro h1
  unfold temperatureLaw at h1
  rw [div_div, div_lt_iff₀ (by positivity)] at hu
  have : mu * ((g - 1) * q.rho * q.u) = q.rho * (q.u * ((g - 1) * mu)) := by ring
  rw [this] at h1
  have := mul_left_cancel₀ hr.ne' h1
  linarith

/-- The adiabatic sound speed is the derivative of the pressure at constant entropy. -/
theorem C61_sound_adiabatic (g mu : ℝ) (q : Proxy n) (hr : 0 < q.rho) (hg : 1 < g) (hu : 0 ≤ q.u) :
    HasDerivAt (fun rho => (adiabatic g mu : Eos n).EntropicFunction q * rho ^ g)
      ((thermal (adiabatic g mu) q).2 ^ 2) q.rho := by
  have h := sub_pos.mpr hg
  have e1 : (thermal (adiabatic g mu) q).2 ^ 2 = g * (g - 1) * q.u := by
    simp only [thermal, adiabatic]
    rw [Real.sq_sqrt]
    exact mul_nonneg (mul_nonneg (by linarith) h.le) hu
  rw [e1]
  refine ((Real.hasDerivAt_rpow_const (p := g) (Or.inl hr.ne')).const_mul _).congr_deriv ?_
  simp only [adiabatic, entropic]
  have : q.rho ^ (1 - g) * q.rho ^ (g - 1) = 1 := by
    rw [← Real.rpow_add hr]; simp
  linear_combination (g * (g - 1) * q.u) * this

/-- The isothermal sound speed is the derivative of the pressure at constant temperature. -/
theorem C61_sound_isothermal (g t mu : ℝ) (q : Proxy n) (hg : 1 < g) (ht : 0 ≤ t) (hmu : 0 < mu) :
    HasDerivAt (fun rho => (thermal (isothermal g t mu : Eos n) { q with rho := rho }).1.p)
      ((thermal (isothermal g t mu) q).2 ^ 2) q.rho := by
  have h := sub_pos.mpr hg
  have e1 : (thermal (isothermal g t mu) q).2 ^ 2 = (g - 1) * (t / (g - 1) / mu) := by
    simp only [thermal, isothermal]
    rw [Real.sq_sqrt]
    positivity
  rw [e1]
  simp only [thermal, isothermal, basePressure]
  refine (((hasDerivAt_id q.rho).const_mul (g - 1)).mul_const (t / (g - 1) / mu)).congr_deriv ?_
  ring

/-- Violated for barotropic gas: `SoundSpeed` is the isothermal one. The slope of the pressure is larger, but by a
factor of less than gamma. -/
theorem C61_sound_barotropic_fails (g t mu rb : ℝ) (q : Proxy n) (hg : 1 < g) (ht : 0 < t) (hmu : 0 < mu)
    (hrb : 0 < rb) (hr : 0 < q.rho) :
    ∃ D, HasDerivAt (fun rho => (thermal (barotropic g t mu rb : Eos n) { q with rho := rho }).1.p) D q.rho ∧
      (thermal (barotropic g t mu rb) q).2 ^ 2 < D ∧ D < g * (thermal (barotropic g t mu rb) q).2 ^ 2 := by
  have h := sub_pos.mpr hg
  set x := (q.rho * (1 / rb)) ^ (g - 1) with hx
  have hxp : 0 < x := Real.rpow_pos_of_pos (by positivity) _
  have e1 : (thermal (barotropic g t mu rb) q).2 ^ 2 = t / mu * (1 + x) := by
    simp only [thermal, barotropic]
    rw [Real.sq_sqrt (by positivity), ← hx]
    field_simp
  refine ⟨t / mu * (1 + g * x), ?_, ?_, ?_⟩
  · have hd : HasDerivAt (fun rho : ℝ => (rho * (1 / rb)) ^ (g - 1))
        (1 * (1 / rb) * (g - 1) * (q.rho * (1 / rb)) ^ (g - 1 - 1)) q.rho :=
      ((hasDerivAt_id q.rho).mul_const (1 / rb)).rpow_const (Or.inl (by positivity))
    have hd2 := ((hasDerivAt_id q.rho).const_mul (g - 1)).mul ((((hd.const_add 1).const_mul t).div_const (g - 1)).div_const mu)
    refine (hd2.congr_of_eventuallyEq (Filter.Eventually.of_forall fun rho => rfl)).congr_deriv ?_
    have hpow : (q.rho * (1 / rb)) ^ (g - 1 - 1) * (q.rho * (1 / rb)) = x := by
      rw [hx, ← Real.rpow_add_one (by positivity)]; congr 1; ring
    simp only [id]
    rw [← hx]
    have : x = (q.rho * (1 / rb)) ^ (g - 1 - 1) * (q.rho * (1 / rb)) := hpow.symm
    have e2 : (g - 1) * q.rho * (t * (1 * (1 / rb) * (g - 1) * (q.rho * (1 / rb)) ^ (g - 1 - 1)) / (g - 1) / mu) =
        t / mu * ((g - 1) * x) := by
      rw [this]; field_simp
    rw [e2]
    field_simp
    ring
  · rw [e1]
    have : 0 < t / mu := by positivity
    refine mul_lt_mul_of_pos_left ?_ this
    nlinarith
  · rw [e1]
    have : 0 < t / mu := by positivity
    have h2 : t / mu * (1 + g * x) < t / mu * (g * (1 + x)) := by
      refine mul_lt_mul_of_pos_left ?_ this
      nlinarith
    linarith

/-- The second barotropic law: below `rho_bary` the sound speed is the slope of the pressure; violated above, where the
slope is larger by the factor gamma. -/
theorem C61_sound_barotropic2_fails (g t mu rb : ℝ) (q : Proxy n) (hg : 1 < g) (ht : 0 < t) (hmu : 0 < mu)
    (hrb : 0 < rb) (hr : 0 < q.rho) :
    (q.rho < rb → HasDerivAt (fun rho => (thermal (barotropic2 g t mu rb : Eos n) { q with rho := rho }).1.p)
      ((thermal (barotropic2 g t mu rb) q).2 ^ 2) q.rho) ∧
    (rb < q.rho → HasDerivAt (fun rho => (thermal (barotropic2 g t mu rb : Eos n) { q with rho := rho }).1.p)
      (g * (thermal (barotropic2 g t mu rb) q).2 ^ 2) q.rho) := by
  have h := sub_pos.mpr hg
  refine ⟨fun hlt => ?_, fun hlt => ?_⟩
  · have e1 : (thermal (barotropic2 g t mu rb) q).2 ^ 2 = t / mu := by
      simp only [thermal, barotropic2, if_pos hlt]
      rw [Real.sq_sqrt (by positivity)]
      field_simp
    rw [e1]
    have hd := ((hasDerivAt_id q.rho).const_mul (t / mu)).congr_deriv (mul_one _)
    refine hd.congr_of_eventuallyEq ?_
    filter_upwards [Iio_mem_nhds hlt] with rho hrho
    simp only [Set.mem_Iio] at hrho
    simp only [thermal, barotropic2, basePressure, if_pos hrho, id]
    field_simp
  · have e1 : (thermal (barotropic2 g t mu rb) q).2 ^ 2 = t / mu * (q.rho * (1 / rb)) ^ (g - 1) := by
      simp only [thermal, barotropic2, if_neg (not_lt.mpr hlt.le)]
      have : 0 < (q.rho * (1 / rb)) ^ (g - 1) := Real.rpow_pos_of_pos (by positivity) _
      rw [Real.sq_sqrt (by positivity)]
      field_simp
    have hd : HasDerivAt (fun rho : ℝ => (rho * (1 / rb)) ^ (g - 1))
        (1 * (1 / rb) * (g - 1) * (q.rho * (1 / rb)) ^ (g - 1 - 1)) q.rho :=
      ((hasDerivAt_id q.rho).mul_const (1 / rb)).rpow_const (Or.inl (by positivity))
    have hd2 := ((hasDerivAt_id q.rho).const_mul (t / mu)).mul hd
    rw [e1]
    refine (hd2.congr_deriv ?_).congr_of_eventuallyEq ?_
    · have hpow : (q.rho * (1 / rb)) ^ (g - 1 - 1) * (q.rho * (1 / rb)) = (q.rho * (1 / rb)) ^ (g - 1) := by
        rw [← Real.rpow_add_one (by positivity)]; congr 1; ring
      simp only [id]
      rw [← hpow]
      ring
    · filter_upwards [Ioi_mem_nhds hlt] with rho hrho
      simp only [Set.mem_Ioi] at hrho
      simp only [thermal, barotropic2, basePressure, if_neg (not_lt.mpr hrho.le), id, Pi.mul_apply]
      field_simp

/-- Gas whose temperature depends on the place only: the sound speed is the slope of the pressure at that place. -/
theorem C61_sound_local (g t mu tl tm : ℝ) (stars : List (Vec n ℝ)) (a b c : ℝ) (star : Vec n ℝ) (q : Proxy n) (hg : 1 < g)
    (ht : 0 ≤ tm) (hmu : 0 < mu) :
    (∀ e : Eos n, e = locallyIsothermal g t mu tl tm stars ∨ e = discLocallyIsothermal g mu a b c star →
      HasDerivAt (fun rho => (thermal e { q with rho := rho }).1.p) ((thermal e q).2 ^ 2) q.rho) := by
  have h := sub_pos.mpr hg
  rintro e (rfl | rfl)
  · have hT : 0 ≤ localTemp t tl tm stars q.r := ht.trans (le_max_right _ _)
    have e1 : (thermal (locallyIsothermal g t mu tl tm stars) q).2 ^ 2 = (g - 1) * (localTemp t tl tm stars q.r / (g - 1) / mu) := by
      simp only [thermal, locallyIsothermal]
      rw [Real.sq_sqrt]
      positivity
    rw [e1]
    simp only [thermal, locallyIsothermal, basePressure]
    refine (((hasDerivAt_id q.rho).const_mul (g - 1)).mul_const _).congr_deriv ?_
    ring
  · simp only [thermal, discLocallyIsothermal, basePressure]
    refine (((hasDerivAt_id q.rho).const_mul (g - 1)).mul_const _).congr_deriv ?_
    field_simp

/-- The disc: at the inner radius the sound speed is `DiscIcHr` times the circular velocity around the mass one, and it falls with the
power `DiscIcQ` of the distance from the first star. -/
theorem C61_disc (g mu p Hr rin : ℝ) (star : Vec n ℝ) (hr : 0 < rin) (q : Proxy n) (d : ℝ) (hd : nearest [star] q.r d) :
    (d = rin → ∃ vc, 0 ≤ vc ∧ vc ^ 2 / rin = 1 / rin ^ 2 ∧ (discLocallyIsothermal g mu p Hr rin star : Eos n).SoundSpeed q = Hr * vc) ∧
    (∀ q' : Proxy n, nearest [star] q'.r rin → 0 < d → (discLocallyIsothermal g mu p Hr rin star : Eos n).SoundSpeed q * d ^ p =
      (discLocallyIsothermal g mu p Hr rin star : Eos n).SoundSpeed q' * rin ^ p) := by
  have key : ∀ (x : Vec n ℝ) (d : ℝ), nearest [star] x d →
      discSound p Hr rin star x = Hr * Real.sqrt (1 / rin) * (d / rin) ^ (-p) := by
    rintro x d ⟨-, s, hs, rfl⟩
    rw [List.mem_singleton] at hs
    subst hs
    unfold discSound
    rw [dot_sq]
  refine ⟨?_, ?_⟩
  · rintro rfl
    refine ⟨Real.sqrt (1 / d), Real.sqrt_nonneg _, ?_, ?_⟩
    · rw [Real.sq_sqrt (by positivity)]; field_simp
    · simp only [discLocallyIsothermal]
      rw [key _ _ hd, div_self hr.ne', Real.one_rpow, mul_one]
  · intro q' hq' hd0
    simp only [discLocallyIsothermal]
    rw [key _ _ hd, key _ _ hq', div_self hr.ne', Real.one_rpow, Real.div_rpow hd0.le hr.le, Real.rpow_neg hd0.le,
      Real.rpow_neg hr.le]
    have h1 : d ^ p ≠ 0 := (Real.rpow_pos_of_pos hd0 p).ne'
    have h2 : rin ^ p ≠ 0 := (Real.rpow_pos_of_pos hr p).ne'
    field_simp

/-- The two barotropic laws: the temperature is at least `temp0` and grows with the density; the second is the larger
of its two limits and is continuous where they meet; the first is the sum of the two, thus within a factor of two. -/
theorem C61_barotropic (g t mu rb : ℝ) (hg : 1 < g) (ht : 0 < t) (hrb : 0 < rb) (q : Proxy n) (hr : 0 < q.rho) :
    t < (barotropic g t mu rb : Eos n).Temperature q ∧
    (barotropic2 g t mu rb : Eos n).Temperature q = max t (t * (q.rho / rb) ^ (g - 1)) ∧
    (barotropic2 g t mu rb : Eos n).Temperature q < (barotropic g t mu rb : Eos n).Temperature q ∧
    (barotropic g t mu rb : Eos n).Temperature q ≤ 2 * (barotropic2 g t mu rb : Eos n).Temperature q ∧
    (∀ rho', q.rho < rho' → (barotropic g t mu rb : Eos n).Temperature q <
        (barotropic g t mu rb : Eos n).Temperature { q with rho := rho' } ∧
      (barotropic2 g t mu rb : Eos n).Temperature q ≤ (barotropic2 g t mu rb : Eos n).Temperature { q with rho := rho' }) := by
  have h := sub_pos.mpr hg
  have hb2 : ∀ x : Proxy n, 0 < x.rho → (barotropic2 g t mu rb : Eos n).Temperature x =
      max t (t * (x.rho / rb) ^ (g - 1)) := by
    intro x hx
    simp only [barotropic2, mul_one_div]
    by_cases hlt : x.rho < rb
    · rw [if_pos hlt, max_eq_left]
      have : (x.rho / rb) ^ (g - 1) ≤ 1 :=
        Real.rpow_le_one (by positivity) ((div_le_one hrb).mpr hlt.le) h.le
      nlinarith
    · rw [if_neg hlt, max_eq_right]
      have : 1 ≤ (x.rho / rb) ^ (g - 1) :=
        Real.one_le_rpow ((one_le_div hrb).mpr (not_lt.mp hlt)) h.le
      nlinarith
  have hb : ∀ x : Proxy n, (barotropic g t mu rb : Eos n).Temperature x = t + t * (x.rho / rb) ^ (g - 1) := by
    intro x; simp only [barotropic, mul_one_div]; ring
  have hpos : ∀ x : ℝ, 0 < x → 0 < t * (x / rb) ^ (g - 1) := fun x hx =>
    mul_pos ht (Real.rpow_pos_of_pos (by positivity) _)
  have hp := hpos q.rho hr
  refine ⟨by rw [hb]; linarith, hb2 q hr, ?_, ?_, ?_⟩
  · rw [hb, hb2 q hr]; exact max_lt (by linarith) (by linarith)
  · rw [hb, hb2 q hr]
    have h1 := le_max_left t (t * (q.rho / rb) ^ (g - 1))
    have h2 := le_max_right t (t * (q.rho / rb) ^ (g - 1))
    linarith
  · intro rho' hlt
    have hmono : t * (q.rho / rb) ^ (g - 1) < t * (rho' / rb) ^ (g - 1) :=
      mul_lt_mul_of_pos_left (Real.rpow_lt_rpow (by positivity) (by gcongr) h) ht
    refine ⟨by rw [hb, hb]; simpa using hmono, ?_⟩
    rw [hb2 q hr, hb2 { q with rho := rho' } (hr.trans hlt)]
    exact max_le_max le_rfl hmono.le

/-- Violated: the polytropic gas. The pressure goes with the exponent `gamma_eos`, energy and sound speed with
`eta_eos`; they belong together only if the two parameters are the same (or at density one). -/
theorem C61_polytropic_fails (g eta K : ℝ) (hK : 0 < K) (he : eta ≠ 1) (q : Proxy n) (hr : 0 < q.rho)
    (hr1 : q.rho ≠ 1) :
    (energyLaw eta (thermal (polytropic g eta K : Eos n) q).1.p q.rho (thermal (polytropic g eta K) q).1.u ↔ g = eta) ∧
    ((polytropic g eta K : Eos n).InternalEnergyFromPressure (thermal (polytropic g eta K) q).1 =
      (thermal (polytropic g eta K : Eos n) q).1.u ↔ g = eta) := by
  have hne : eta - 1 ≠ 0 := sub_ne_zero.mpr he
  have hiff : (polytropic g eta K : Eos n).InternalEnergyFromPressure (thermal (polytropic g eta K) q).1 =
      (thermal (polytropic g eta K : Eos n) q).1.u ↔
      energyLaw eta (thermal (polytropic g eta K : Eos n) q).1.p q.rho (thermal (polytropic g eta K) q).1.u := by
    unfold energyLaw Eos.InternalEnergyFromPressure
    have h1 : (polytropic g eta K : Eos n).gamma = eta := rfl
    have h2 : (thermal (polytropic g eta K : Eos n) q).1.rho = q.rho := rfl
    rw [h1, h2, div_eq_iff (mul_ne_zero hr.ne' hne)]
    constructor <;> intro h <;> linear_combination h
  rw [hiff, and_self]
  simp only [energyLaw, thermal, polytropic]
  have e : (eta - 1) * q.rho * (K * q.rho ^ (eta - 1) / (eta - 1)) = K * q.rho ^ eta := by
    have : q.rho ^ (eta - 1) * q.rho = q.rho ^ eta := by
      rw [← Real.rpow_add_one hr.ne']; congr 1; ring
    field_simp
    linear_combination this
  rw [e]
  constructor
  · intro h
    have h1 := mul_left_cancel₀ hK.ne' h
    have h2 := congrArg Real.log h1
    rw [Real.log_rpow hr, Real.log_rpow hr] at h2
    refine mul_right_cancel₀ ?_ h2
    exact Real.log_ne_zero_of_pos_of_ne_one hr hr1
  · rintro rfl; rfl

/-- With both exponents the same the polytropic gas is one: pressure `K ρ^η` and matching energy and entropy. The sound
speed is the isothermal one, smaller than the slope of the pressure by the factor `sqrt η`. -/
theorem C61_polytropic_partial (eta K : ℝ) (hK : 0 < K) (he : 1 < eta) (q : Proxy n) (hr : 0 < q.rho) :
    (thermal (polytropic eta eta K : Eos n) q).1.p = K * q.rho ^ eta ∧
    energyLaw eta (thermal (polytropic eta eta K : Eos n) q).1.p q.rho (thermal (polytropic eta eta K) q).1.u ∧
    (polytropic eta eta K : Eos n).EntropicFunction (thermal (polytropic eta eta K) q).1 = K ∧
    HasDerivAt (fun rho => (thermal (polytropic eta eta K : Eos n) { q with rho := rho }).1.p)
      (eta * (thermal (polytropic eta eta K) q).2 ^ 2) q.rho := by
  have h := sub_pos.mpr he
  refine ⟨rfl, ?_, ?_, ?_⟩
  · simp only [energyLaw, thermal, polytropic]
    have : q.rho ^ (eta - 1) * q.rho = q.rho ^ eta := by
      rw [← Real.rpow_add_one hr.ne']; congr 1; ring
    field_simp
    linear_combination -this
  · simp only [thermal, polytropic, entropic]
    have : q.rho ^ (eta - 1) * q.rho ^ (1 - eta) = 1 := by
      rw [← Real.rpow_add hr]; simp
    field_simp
    linear_combination this
  · have e1 : (thermal (polytropic eta eta K : Eos n) q).2 ^ 2 = K * q.rho ^ (eta - 1) := by
      have hp : 0 < q.rho ^ (eta - 1) := Real.rpow_pos_of_pos hr _
      simp only [thermal, polytropic]
      rw [Real.sq_sqrt (by positivity)]
      field_simp
    rw [e1]
    simp only [thermal, polytropic]
    refine ((Real.hasDerivAt_rpow_const (p := eta) (Or.inl hr.ne')).const_mul K).congr_deriv ?_
    ring

/-- Locally isothermal gas follows the nearest star: the temperature is `temp0 d^-templaw` at distance `d`, but not less
than `tempmin`, if some star is within 1e15 length units. -/
theorem C61_locally_isothermal (g t mu tl tm : ℝ) (stars : List (Vec n ℝ)) (q : Proxy n)
    (h : ∃ s ∈ stars, Real.sqrt (∑ k, (q.r k - s k) ^ 2) ≤ 10 ^ 15) :
    ∃ d, nearest stars q.r d ∧
      (locallyIsothermal g t mu tl tm stars : Eos n).Temperature q = max (t * d ^ (-tl)) tm ∧
      (0 < d → 0 ≤ t → 0 ≤ tl → ∀ q' : Proxy n, ∀ d', nearest stars q'.r d' → d ≤ d' → d' ≤ 10 ^ 15 →
        (locallyIsothermal g t mu tl tm stars : Eos n).Temperature q' ≤
          (locallyIsothermal g t mu tl tm stars : Eos n).Temperature q) := by
  have huniq : ∀ (x : Vec n ℝ) (a b : ℝ), nearest stars x a → nearest stars x b → a = b := by
    rintro x a b ⟨h1, s, hs, rfl⟩ ⟨h2, s', hs', rfl⟩
    exact le_antisymm (h1 s' hs') (h2 s hs)
  refine ⟨starDist stars q.r, starDist_nearest stars q.r h, rfl, ?_⟩
  intro hd ht htl q' d' hn hle hd15
  obtain ⟨s, hs, hs'⟩ := hn.2
  have e := huniq q'.r d' (starDist stars q'.r) hn (starDist_nearest stars q'.r ⟨s, hs, by rw [← hs']; exact hd15⟩)
  simp only [locallyIsothermal, localTemp, ← e]
  refine max_le_max ?_ le_rfl
  exact mul_le_mul_of_nonneg_left (Real.rpow_le_rpow_of_nonpos hd hle (by linarith)) ht

/-- Ionised gas never cools below the neutral gas and keeps a higher energy. -/
theorem C61_ionised (e : Eos n) (q : Proxy n) (hi : q.ionstate ≠ 0) :
    (ionising e).SpecificInternalEnergy q = max q.u (e.SpecificInternalEnergy q) := by
  simp only [ionising, hi, ne_eq, not_false_eq_true, if_true]
  by_cases h : q.u > e.SpecificInternalEnergy q
  · rw [if_pos h, max_eq_left h.le]
  · rw [if_neg h, max_eq_right (not_lt.mp h)]

/-! ### The theorems at work -/

section example1

/-- gas of density 2 and energy 3 moving with velocity 1 -/
private def exQ : Proxy 1 := ⟨fun _ => 5, fun _ => 1, 2, 3, 0, 0⟩

/-- monatomic gas: pressure 4 -/
example : (thermal (adiabatic (5 / 3) 1 : Eos 1) exQ).1.p = 4 := by
  have := (C61_ideal_gas (adiabatic (5 / 3) 1) (Chosen.adiabatic _ _) exQ (by norm_num [exQ]) (by norm_num [adiabatic])).1
  rw [this]
  norm_num [adiabatic, thermal, exQ]

/-- molecular gas: the temperature is wrong -/
example : ¬ temperatureLaw (7 / 3) (thermal (adiabatic (7 / 5) (7 / 3) : Eos 1) exQ).1.p exQ.rho
    ((adiabatic (7 / 5) (7 / 3) : Eos 1).Temperature (thermal (adiabatic (7 / 5) (7 / 3)) exQ).1) := by
  rw [C61_adiabatic_temperature_fails _ _ _ (by norm_num [exQ]) (by norm_num) (by norm_num [exQ])]
  norm_num

/-- the default parameters `gamma_eos = 1.66666666666666`, `eta_eos = 1.4` -/
example : ¬ energyLaw 1.4 (thermal (polytropic 1.66666666666666 1.4 1 : Eos 1) exQ).1.p exQ.rho
    (thermal (polytropic 1.66666666666666 1.4 1) exQ).1.u := by
  rw [(C61_polytropic_fails _ _ _ (by norm_num) (by norm_num) _ (by norm_num [exQ]) (by norm_num [exQ])).1]
  norm_num

/-- two stars, at 1 and at 20: the one at distance 4 counts -/
example : ∃ d, nearest [fun _ => 1, fun _ => 20] exQ.r d ∧
    (locallyIsothermal (5 / 3) 100 2 (1 / 2) 10 [fun _ => 1, fun _ => 20] : Eos 1).Temperature exQ =
      max (100 * d ^ (-(1 / 2) : ℝ)) 10 := by
  obtain ⟨d, h1, h2, _⟩ := C61_locally_isothermal (5 / 3) 100 2 (1 / 2) 10 [fun _ => 1, fun _ => 20] exQ
    ⟨fun _ => 1, by simp, by
      refine (Real.sqrt_le_sqrt (y := (10 ^ 15) ^ 2) (by norm_num [exQ])).trans ?_
      rw [Real.sqrt_sq (by norm_num)]⟩
  exact ⟨d, h1, h2⟩

/-- density 2 is above `rho_bary = 1`, and the pressure steeper than the square of the sound speed -/
example : HasDerivAt (fun rho => (thermal (barotropic2 (7 / 5) 10 2 1 : Eos 1) { exQ with rho := rho }).1.p)
    (7 / 5 * (thermal (barotropic2 (7 / 5) 10 2 1) exQ).2 ^ 2) exQ.rho :=
  (C61_sound_barotropic2_fails (7 / 5) 10 2 1 exQ (by norm_num) (by norm_num) (by norm_num) (by norm_num) (by norm_num [exQ])).2
    (by norm_num [exQ])

example : nearest [fun _ => 1] exQ.r 4 := by
  have : Real.sqrt (∑ k, (exQ.r k - (fun _ : Fin 1 => (1 : ℝ)) k) ^ 2) = 4 := by
    simp only [exQ, Fin.sum_univ_one]
    rw [Real.sqrt_sq] <;> norm_num
  exact ⟨fun s hs => by rw [List.mem_singleton] at hs; subst hs; exact this.ge, _, List.mem_singleton_self _, this.symm⟩

end example1

end Gandalf
