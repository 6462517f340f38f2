import Verif.Prop.C25

/-!
# C53 – time-dependent viscosity

`alpha` is to stay between `alpha_visc_min` and `alpha_visc`. With `cd2010` it does. With `mm97` the rate is
right for a single force evaluation that starts from a zero rate, but the rates of successive evaluations are
added up because `ZeroAccelerations` leaves `dalphadt` alone, so that `alpha` may turn negative; with
self-gravity the rate never reaches the main array, and it would have the wrong sign in the source term.
-/

set_option autoImplicit false
set_option linter.unusedSectionVars false

namespace Gandalf

open Sph

variable {n N : ℕ}

namespace Sph

/-- rate of Morris & Monaghan (1997) -/
noncomputable def mm97Rate (par : Par) (p : Part n) (divv : ℝ) : ℝ :=
  0.1 * p.sound * (par.alpha_visc_min - p.alpha) / p.h + max (-divv) 0 * (par.alpha_visc - p.alpha)

theorem updateHydro_div_v (par : Par) (K : Kernel) (eosP : Fin N → ℝ) (nb : Fin N → Neibs n N) (sys : Fin N → Part n)
    (i : Fin N) : (updateHydro par K eosP nb sys i).div_v =
      (hydroForces par K (eosP i) (startHydro (zeroAcc (sys i))) (copies sys (nb i))).div_v := by
  simp [updateHydro, addHydro, zeroAcc]

end Sph

/-- One force evaluation adds the right rate to whatever the rate was before. -/
theorem C53_mm97_rate_partial (par : Par) (ht : par.tdavisc = .mm97) (K : Kernel) (eosP : Fin N → ℝ)
    (nb : Fin N → Neibs n N) (sys : Fin N → Part n) (i : Fin N) :
    (updateHydro par K eosP nb sys i).dalphadt =
      (sys i).dalphadt + mm97Rate par (sys i) (updateHydro par K eosP nb sys i).div_v := by
  rw [updateHydro_div_v]
  simp only [updateHydro, addHydro, hydroForces, setDalphadt_div_v]
  simp only [setDalphadt, if_pos ht, foldl_hydro, finish, mm97Rate, startHydro, zeroAcc]
  ring

/-- If the rate was zero before and the step resolves the rates, `alpha` stays in its range. -/
theorem C53_mm97_range_partial (par : Par) (hpar : par.Good) (ht : par.tdavisc = .mm97) (K : Kernel)
    (eosP : Fin N → ℝ) (nb : Fin N → Neibs n N) (sys : Fin N → Part n) (i : Fin N) (hg : Good (sys i))
    (h0 : (sys i).dalphadt = 0) {dt : ℝ} (hdt : 0 ≤ dt)
    (hres : (0.1 * (sys i).sound / (sys i).h + max (-(updateHydro par K eosP nb sys i).div_v) 0) * dt ≤ 1)
    (hlo : par.alpha_visc_min ≤ (sys i).alpha) (hhi : (sys i).alpha ≤ par.alpha_visc) :
    par.alpha_visc_min ≤ (stepAlpha par K eosP nb dt sys i).alpha ∧
    (stepAlpha par K eosP nb dt sys i).alpha ≤ par.alpha_visc := by
  have e : (stepAlpha par K eosP nb dt sys i).alpha = (sys i).alpha +
      mm97Rate par (sys i) (updateHydro par K eosP nb sys i).div_v * dt := by
    have h1 := C53_mm97_rate_partial par ht K eosP nb sys i
    have h2 : (updateHydro par K eosP nb sys i).alpha = (sys i).alpha := rfl
    have h3 : par.tdavisc ≠ .notdav := by rw [ht]; decide
    simp only [stepAlpha, advanceAlpha, if_pos h3]
    rw [h1, h2, h0, zero_add]
  rw [e]
  unfold mm97Rate
  set A := 0.1 * (sys i).sound / (sys i).h with hA
  set B := max (-(updateHydro par K eosP nb sys i).div_v) 0 with hB
  have hA0 : 0 ≤ A := div_nonneg (mul_nonneg (by norm_num) hg.sound) hg.h.le
  have hB0 : 0 ≤ B := le_max_right _ _
  have e2 : (0.1 * (sys i).sound * (par.alpha_visc_min - (sys i).alpha) / (sys i).h +
      B * (par.alpha_visc - (sys i).alpha)) * dt =
      A * dt * (par.alpha_visc_min - (sys i).alpha) + B * dt * (par.alpha_visc - (sys i).alpha) := by
    rw [hA]; ring
  rw [e2]
  have a0 := mul_nonneg hA0 hdt
  have b0 := mul_nonneg hB0 hdt
  have hab : A * dt + B * dt ≤ 1 := by linarith
  generalize A * dt = a at *
  generalize B * dt = b at *
  constructor
  · have h1 := mul_nonneg (sub_nonneg.mpr hab) (sub_nonneg.mpr hlo)
    have h2 := mul_nonneg b0 (sub_nonneg.mpr hpar.range)
    linarith
  · have h1 := mul_nonneg (sub_nonneg.mpr hab) (sub_nonneg.mpr hhi)
    have h2 := mul_nonneg a0 (sub_nonneg.mpr hpar.range)
    linarith

/-! ### the rates add up -/

namespace Sph

/-- a single particle at rest -/
noncomputable def lone : Part 3 where
  r := fun _ => 0
  v := fun _ => 0
  m := 1
  h := 1
  hfactor := 1
  rho := 1
  pressure := 1
  invomega := 1
  zeta := 0
  sound := 5
  u := 1
  alpha := 1
  level := 0
  levelneib := 0
  a := fun _ => 0
  atree := fun _ => 0
  gpot := 0
  dudt := 0
  div_v := 0
  dalphadt := 0

/-- parameters with Morris & Monaghan viscosity -/
noncomputable def mmPar : Par where
  avisc := .mon97mm97
  acond := .noac
  tdavisc := .mm97
  alpha_visc := 1
  alpha_visc_min := 0.1
  beta_visc := 2

/-- the particle's list: itself -/
def loneNb (_ : Fin 1) : Neibs 3 1 := [(0, 0)]

noncomputable def loneStep (sys : Fin 1 → Part 3) : Fin 1 → Part 3 := stepAlpha mmPar (m4Kernel 3) (fun _ => 1) loneNb 1 sys

theorem lone_step (sys : Fin 1 → Part 3) (hs : (sys 0).sound = 5) (hh : (sys 0).h = 1) :
    (loneStep sys 0).dalphadt = (sys 0).dalphadt + 0.5 * (0.1 - (sys 0).alpha) ∧
    (loneStep sys 0).alpha = (sys 0).alpha + ((sys 0).dalphadt + 0.5 * (0.1 - (sys 0).alpha)) ∧
    (loneStep sys 0).sound = 5 ∧ (loneStep sys 0).h = 1 := by
  have hdiv : (updateHydro mmPar (m4Kernel 3) (fun _ => 1) loneNb sys 0).div_v = 0 := by
    rw [updateHydro_div_v]
    have hd : dvdr 0 (startHydro (zeroAcc (sys 0))) (sys 0) = 0 := by
      simp [dvdr, startHydro, zeroAcc]
    simp only [hydroForces, setDalphadt_div_v, foldl_hydro, finish, copies, loneNb, List.map_cons, List.map_nil,
      List.sum_cons, List.sum_nil, image_zero, hd]
    simp [startHydro]
  have h1 := C53_mm97_rate_partial mmPar rfl (m4Kernel 3) (fun _ => 1) loneNb sys 0
  rw [hdiv] at h1
  have h2 : (updateHydro mmPar (m4Kernel 3) (fun _ => 1) loneNb sys 0).alpha = (sys 0).alpha := by
    simp [updateHydro, addHydro, zeroAcc]
  have h3 : mmPar.tdavisc ≠ .notdav := by decide
  have h4 : (updateHydro mmPar (m4Kernel 3) (fun _ => 1) loneNb sys 0).dalphadt =
      (sys 0).dalphadt + 0.5 * (0.1 - (sys 0).alpha) := by
    rw [h1]
    simp only [mm97Rate, hs, hh]
    norm_num [mmPar]
  refine ⟨?_, ?_, ?_, ?_⟩ <;> simp only [loneStep, stepAlpha, advanceAlpha, if_pos h3]
  · exact h4
  · rw [h2, h4]; ring
  · simpa [updateHydro, addHydro, zeroAcc] using hs
  · simpa [updateHydro, addHydro, zeroAcc] using hh

end Sph

/-- The rates of successive steps add up: the viscosity parameter of a single particle at rest, which should
decay to `alpha_visc_min`, is negative after three well-resolved steps. -/
theorem C53_mm97_range_fails : mmPar.Good ∧ Good lone ∧ lone.dalphadt = 0 ∧
    mmPar.alpha_visc_min ≤ lone.alpha ∧ lone.alpha ≤ mmPar.alpha_visc ∧
    0.1 * lone.sound / lone.h * (1 : ℝ) ≤ 1 ∧
    (loneStep^[3] (fun _ => lone) 0).alpha < 0 := by
  refine ⟨⟨?_, ?_, ?_, ?_⟩, ⟨?_, ?_, ?_, ?_, ?_, ?_⟩, rfl, ?_, ?_, ?_, ?_⟩ <;> try norm_num [mmPar, lone]
  obtain ⟨d1, a1, s1, h1⟩ := lone_step (fun _ => lone) rfl rfl
  obtain ⟨d2, a2, s2, h2⟩ := lone_step _ s1 h1
  obtain ⟨_, a3, _, _⟩ := lone_step _ s2 h2
  have hd : lone.dalphadt = 0 := rfl
  have ha : lone.alpha = 1 := rfl
  change (loneStep (loneStep (loneStep fun _ => lone)) 0).alpha < 0
  rw [a3, d2, a2, d1, a1, hd, ha]
  norm_num

/-- With self-gravity the rate of change stays what it was: `alpha` never changes. -/
theorem C53_gravity_frozen (par : Par) (K : Kernel) (sm : ℝ) (eosP : Fin N → ℝ) (sphdata : ℕ → Part n)
    (hyd smo dir : Fin N → Neibs n N) (sys : Fin N → Part n) (i : Fin N) (h0 : (sys i).dalphadt = 0) (dt : ℝ) :
    (updateGrav par K sm eosP sphdata hyd smo dir sys i).dalphadt = 0 ∧
    (advanceAlpha par dt (updateGrav par K sm eosP sphdata hyd smo dir sys i)).alpha = (sys i).alpha := by
  have h1 : (updateGrav par K sm eosP sphdata hyd smo dir sys i).dalphadt = 0 := h0
  refine ⟨h1, ?_⟩
  unfold advanceAlpha
  split_ifs
  · rw [h1, zero_mul, add_zero]; rfl
  · rfl

/-- The rate that `ComputeSphHydroGravForces` leaves in its own copy grows in expansion instead of compression. -/
theorem C53_gravity_sign (par : Par) (ht : par.tdavisc = .mm97) (K : Kernel) (sm eosP : ℝ) (p : Part n)
    (nb : List (Part n)) :
    (hydroGravForces par K sm eosP p nb).dalphadt =
      mm97Rate par p (-(hydroGravForces par K sm eosP p nb).div_v) := by
  simp only [hydroGravForces, setDalphadt_div_v]
  simp only [setDalphadt, if_pos ht, foldl_hydroGrav, finish, mm97Rate, neg_neg]
  ring

/-! ### Cullen & Dehnen -/

/-- `cd2010`: after `ComputeH` has set `alpha` and its rate, the force loop (which leaves the rate alone) and any
number of advances over a total time that resolves the decay keep `alpha` in its range. -/
theorem C53_cd2010_range (par : Par) (hpar : par.Good) (ht : par.tdavisc = .cd2010) (bad : Bool) (ddivdt fB : ℝ)
    (K : Kernel) (eosP : Fin N → ℝ) (nb : Fin N → Neibs n N) (sys : Fin N → Part n) (i : Fin N) (hg : Good (sys i))
    (hlo : par.alpha_visc_min ≤ (sys i).alpha) (hhi : (sys i).alpha ≤ par.alpha_visc)
    (others : Fin N → Part n) (hi : others i = cullenDehnen par bad ddivdt fB (sys i))
    {dt : ℝ} (hdt : 0 ≤ dt) (k : ℕ) (hres : 0.1 * (sys i).sound / (sys i).h * (k * dt) ≤ 1) :
    par.alpha_visc_min ≤ ((advanceAlpha par dt)^[k] (updateHydro par K eosP nb others i)).alpha ∧
    ((advanceAlpha par dt)^[k] (updateHydro par K eosP nb others i)).alpha ≤ par.alpha_visc := by
  have h3 : par.tdavisc ≠ .notdav := by rw [ht]; decide
  have h4 : par.tdavisc ≠ .mm97 := by rw [ht]; decide
  have hd : (updateHydro par K eosP nb others i).dalphadt = (others i).dalphadt := by
    simp only [updateHydro, addHydro, hydroForces, setDalphadt, if_neg h4, foldl_hydro, finish, startHydro, zeroAcc,
      add_zero]
  have ha : (updateHydro par K eosP nb others i).alpha = (others i).alpha := rfl
  have hadv : ∀ (k : ℕ) (p : Part n), ((advanceAlpha par dt)^[k] p).alpha = p.alpha + p.dalphadt * (k * dt) := by
    intro k
    induction k with
    | zero => intro p; simp
    | succ k ih =>
      intro p
      rw [Function.iterate_succ_apply, ih]
      simp only [advanceAlpha, if_pos h3]
      push_cast
      ring
  rw [hadv, hd, ha, hi]
  generalize hT : (k : ℝ) * dt = T at *
  have hT0 : 0 ≤ T := by rw [← hT]; positivity
  simp only [cullenDehnen]
  generalize hloc : (if bad = true then par.alpha_visc
    else if ddivdt < 0 then
      min (10 * (sys i).h * (sys i).h / ((sys i).sound * (sys i).sound) * fB * (-ddivdt)) par.alpha_visc
    else 0) = loc
  have hl : loc ≤ par.alpha_visc := by
    rw [← hloc]
    split_ifs
    · exact le_rfl
    · exact min_le_right _ _
    · exact hpar.alpha
  have hA0 : 0 ≤ 0.1 * (sys i).sound / (sys i).h := div_nonneg (mul_nonneg (by norm_num) hg.sound) hg.h.le
  have e2 : ∀ al tgt : ℝ, al + 0.1 * (sys i).sound * (tgt - al) * (1 / (sys i).h) * T =
      al + 0.1 * (sys i).sound / (sys i).h * T * (tgt - al) := fun al tgt => by ring
  rw [e2]
  have x0 := mul_nonneg hA0 hT0
  generalize 0.1 * (sys i).sound / (sys i).h * T = x at *
  have key : ∀ al tgt, par.alpha_visc_min ≤ al → al ≤ par.alpha_visc → par.alpha_visc_min ≤ tgt → tgt ≤ par.alpha_visc →
      par.alpha_visc_min ≤ al + x * (tgt - al) ∧ al + x * (tgt - al) ≤ par.alpha_visc := by
    intro al tgt h1 h2 h3 h4
    constructor
    · have := mul_nonneg (sub_nonneg.mpr hres) (sub_nonneg.mpr h1)
      have := mul_nonneg x0 (sub_nonneg.mpr h3)
      linarith
    · have := mul_nonneg (sub_nonneg.mpr hres) (sub_nonneg.mpr h2)
      have := mul_nonneg x0 (sub_nonneg.mpr h4)
      linarith
  refine key _ _ ?_ ?_ (le_max_left _ _) (max_le hpar.range hl)
  · split_ifs with hc
    · linarith
    · exact hlo
  · split_ifs with hc
    · exact hl
    · exact hhi

/-- `cd2010` reacts at once: after the call `alpha` is not below the local value. -/
theorem C53_cd2010_reacts (par : Par) (bad : Bool) (ddivdt fB : ℝ) (p : Part n) (hdd : ddivdt < 0) (hb : bad = false) :
    min (10 * p.h * p.h / (p.sound * p.sound) * fB * (-ddivdt)) par.alpha_visc ≤
      (cullenDehnen par bad ddivdt fB p).alpha := by
  simp only [cullenDehnen, hb, Bool.false_eq_true, if_false, if_pos hdd]
  split_ifs with h
  · exact le_rfl
  · exact not_lt.mp h

/-- a case with a shock: `alpha` rises from the minimum to the maximum -/
example : (cullenDehnen mmPar false (-1) 10 { lone with alpha := 0.1 }).alpha = 1 := by
  norm_num [cullenDehnen, mmPar, lone]

end Gandalf
