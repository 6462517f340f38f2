import Verif.Proof.Radws
import Verif.Proof.FvStep
import Mathlib.Analysis.SpecialFunctions.ExpDeriv

/-!
# C75 – radiative cooling
-/

set_option autoImplicit false

namespace Gandalf

open Radws Real

/-! ### tables -/

/-- **C75, look-up.** In an ordered table the nearest entry is found. -/
theorem C75_closest (a : ℕ → ℝ) (n : ℕ) (v : ℝ) (hn : 0 < n) (hm : ∀ j k, j ≤ k → k < n → a j ≤ a k) :
    Nearest a n v (closest a n v) := closest_spec a n v hn hm

/-- **C75, negation: the density of the equation of state.** The table holds logarithms, but pressure, temperature and sound
speed look up the density itself (OpacityTable.h:159, 174, 191; OpacityTable.cpp:179; EnergyRadws.cpp:560). Even where the
table has the very density of the gas, a different entry is taken as soon as any entry is nearer to the density than its
logarithm is. -/
theorem C75_density_fails (t : Table) (rho : ℝ) (hr : 0 < rho) (hm : ∀ j k, j ≤ k → k < t.ndens → t.dens j ≤ t.dens k)
    (j0 : ℕ) (h0 : j0 < t.ndens) (hj0 : t.dens j0 = logb 10 rho) :
    t.dens (t.iDens (logb 10 rho)) = logb 10 rho ∧ logb 10 rho < rho ∧
    ∀ j1 < t.ndens, |t.dens j1 - rho| < rho - logb 10 rho → t.dens (t.iDens rho) ≠ logb 10 rho := by
  have hn : 0 < t.ndens := by omega
  refine ⟨?_, logb_lt rho hr, fun j1 h1 hj1 he => ?_⟩
  · have := (closest_spec t.dens t.ndens (logb 10 rho) hn hm).2 j0 h0
    rw [hj0, sub_self, abs_zero] at this
    have := abs_eq_zero.mp (le_antisymm this (abs_nonneg _))
    simp only [Table.iDens]
    linarith
  · have := (closest_spec t.dens t.ndens rho hn hm).2 j1 h1
    simp only [Table.iDens] at he
    rw [he, abs_of_nonpos (by linarith [logb_lt rho hr])] at this
    linarith

/-- a table of densities 10⁻²⁰, 10⁻¹⁰, 1 and temperatures 1, 10, 100, 1000 with constant opacities -/
noncomputable def Radws.toy : Table where
  ndens := 3
  ntemp := 4
  dens := fun j => (j : ℝ) * 10 - 20
  temp := fun j => (j : ℝ)
  energy := fun _ j => 10 ^ j
  mu := fun _ _ => 2
  kappa := fun _ _ => 1
  kappap := fun _ _ => 1
  gamma := fun _ _ => 3 / 2
  gamma1 := fun _ _ => 3 / 2

/-- gas of density 10⁻¹⁰ is treated as gas of density 1 -/
example : toy.dens (toy.iDens ((10 : ℝ) ^ (-10 : ℝ))) ≠ -10 := by
  have e : logb 10 ((10 : ℝ) ^ (-10 : ℝ)) = -10 := Real.logb_rpow (by norm_num) (by norm_num)
  have hm : ∀ j k, j ≤ k → k < toy.ndens → toy.dens j ≤ toy.dens k := by
    intro j k h _
    have : (j : ℝ) ≤ k := by exact_mod_cast h
    simp only [toy]; linarith
  have hx : (10 : ℝ) ^ (-10 : ℝ) = 1 / 10 ^ 10 := by
    rw [show (-10 : ℝ) = -((10 : ℕ) : ℝ) by norm_num, Real.rpow_neg (by norm_num), Real.rpow_natCast]; norm_num
  have := (C75_density_fails toy ((10 : ℝ) ^ (-10 : ℝ)) (by positivity) hm 1 (by simp [toy]) (by rw [e]; norm_num [toy])).2.2 2
    (by simp [toy]) (by
      rw [e]
      simp only [toy]
      rw [hx]
      rw [abs_of_nonpos (by norm_num)]
      norm_num)
  rwa [e] at this

/-- **C75, partial: pressure and energy.** Where `γ` is the same along the table the energy for a pressure gives that pressure
back. Missing: tables with changing `γ`, where the entry found by pressure need not be the one found by energy. -/
theorem C75_inverse_partial (t : Table) (rho P g : ℝ) (hr : rho ≠ 0) (hg : g ≠ 1) (hf : ∀ c, t.gamma (t.iDens rho) c = g) :
    t.pressure rho (t.energyFromPressure rho P) = P := by
  have hg' : g - 1 ≠ 0 := sub_ne_zero.mpr hg
  have e : t.energyFromPressure rho P = P / (rho * (g - 1)) := by
    simp only [Table.energyFromPressure, hf]
    split_ifs <;> rfl
  rw [e]
  simp only [Table.pressure, Table.getGamma, hf]
  field_simp

/-- **C75, the entry of a pressure.** Within an ordered table the search ends at entries on either side of the pressure. -/
theorem C75_pressure_entry (f : ℕ → ℝ) (n : ℕ) (P : ℝ) (hn : 2 ≤ n) (h0 : f 0 ≤ P) (h1 : P ≤ f (n - 1)) :
    let l := bisectIdx f P 0 (n - 1)
    l + 1 < n ∧ f l ≤ P ∧ P ≤ f (l + 1) := by
  obtain ⟨_, g2, g3, g4⟩ := bisectIdx_spec f P (n - 1) 0 (n - 1) (by omega) (by omega) h0
  refine ⟨by omega, g3, ?_⟩
  rcases g4 with g4 | g4
  · rw [g4]; exact h1
  · exact g4.le

/-! ### the equilibrium temperature -/

theorem Radws.equi_iff {E : Env} {k kp T : ℝ} (h : Rad E k kp) :
    ebal E E.dudt T k kp = 0 ↔ Equilibrium E.rad E.tamb E.col2 k kp E.dudt T := by
  have hD := h.D.ne'
  simp only [ebal, Equilibrium]
  generalize E.col2 * k + 1 / kp = D at hD
  rw [sub_eq_zero, eq_div_iff hD]

/-- the table is ordered and `c` is the entry of the lowest temperature -/
structure Radws.Setting (t : Table) (i : ℕ) (E : Env) (k kp : ℝ) (c : ℕ) : Prop where
  flat : Flat t i k kp
  rad : Rad E k kp
  tmin : 0 < E.tmin
  sorted : ∀ j l, j < l → l < t.ntemp → t.temp j < t.temp l
  entry : t.iTemp (logb 10 E.tmin) = c
  some_ : 0 < t.ntemp

theorem Radws.Setting.below {t : Table} {i : ℕ} {E : Env} {k kp : ℝ} {c : ℕ} (S : Setting t i E k kp c) (hc : c ≠ 0) :
    t.T (c - 1) < E.tmin := by
  have := closest_prev t.temp t.ntemp (logb 10 E.tmin) S.some_ S.sorted (by
    have := S.entry; rw [Table.iTemp] at this; rw [this]; exact hc)
  have e := S.entry
  rw [Table.iTemp] at e
  rw [e] at this
  exact T_lt_of S.tmin this

theorem Radws.ended_spec {t : Table} {i : ℕ} {E : Env} {k kp Ts : ℝ} (hf : Flat t i k kp) (h : Rad E k kp) (hs : 0 < Ts)
    (hb : ebal E E.dudt Ts k kp = 0) (B : Br) (hB : Good E k kp Ts B) (il : ℕ) :
    ∃ n0, ∀ fuel ≥ n0, ∃ T, ended t i E fuel k kp il B = .found T ∧ (T = Ts ∨ ∃ T', |T' - Ts| ≤ T' / 2000 ∧ T = max T' E.tamb) := by
  have hp : 0 < B.Tl / 1000 := by have := hB.pos; linarith
  obtain ⟨m, hm⟩ := pow_unbounded_of_one_lt ((B.Th - B.Tl) / (B.Tl / 1000)) (one_lt_two (α := ℝ))
  refine ⟨m + 1, fun fuel hfu => ?_⟩
  obtain ⟨f, rfl⟩ : ∃ f, fuel = f + 1 := ⟨fuel - 1, by omega⟩
  have hw : B.Th - B.Tl ≤ 2 ^ f * (B.Tl / 1000) := by
    rw [div_lt_iff₀ hp] at hm
    refine hm.le.trans (mul_le_mul_of_nonneg_right ?_ hp.le)
    exact pow_le_pow_right₀ (by norm_num) (by omega)
  rcases refine_spec h hs hb f B hB hw with e | ⟨T', e1, e2⟩
  · exact ⟨Ts, by simp only [ended, (hf _).1, (hf _).2, e], Or.inl rfl⟩
  · exact ⟨_, by simp only [ended, (hf _).1, (hf _).2, e2], Or.inr ⟨T', e1, rfl⟩⟩

/-- **C75, partial: the equilibrium.** The flow heats or does not change the energy of the gas, opacities are the same at
all temperatures, and the table has entries on both sides of the lowest temperature. If the gas is below its equilibrium, which
lies in the table, or cools towards one between the entries around the lowest temperature, then the search ends and the
temperature found is the equilibrium to within one part in 2000. Missing: other gas that cools (`C75_cool_fails`), other tables
(`C75_first_fails`), opacities that change, for which the refinement mixes values of different temperatures. -/
theorem C75_equilibrium_partial (t : Table) (i : ℕ) (E : Env) (k kp : ℝ) (c : ℕ) (S : Setting t i E k kp c)
    (hc : c ≠ 0) (hc2 : c + 1 < t.ntemp) (temp Ts : ℝ) (ht : 0 < temp) (hs : 0 < Ts) (hmin : E.tmin < Ts)
    (hd : 0 ≤ E.dudt) (ha : 0 ≤ E.tamb) (hT : Equilibrium E.rad E.tamb E.col2 k kp E.dudt Ts)
    (hside : (temp < Ts ∧ Ts ≤ t.T (t.ntemp - 1)) ∨ (Ts ≤ temp ∧ Ts ≤ t.T (c + 1))) :
    ∃ n0, ∀ fuel ≥ n0, ∃ T, equiTemp t i E fuel temp = .found T ∧ |T - Ts| ≤ T / 2000 := by
  have hb := (equi_iff S.rad).mpr hT
  have hlow := S.below hc
  have hambs : E.tamb ≤ Ts := by
    by_contra hcon
    have h4 : Ts ^ 4 < E.tamb ^ 4 := pow_lt_pow_left₀ (not_le.mp hcon) hs.le (by norm_num)
    have e1 : 0 ≤ E.dudt * (E.col2 * k + 1 / kp) := mul_nonneg hd S.rad.D.le
    have := S.rad.rad
    simp only [Equilibrium] at hT
    nlinarith
  have conv : ∀ T, (T = Ts ∨ ∃ T', |T' - Ts| ≤ T' / 2000 ∧ T = max T' E.tamb) → |T - Ts| ≤ T / 2000 := by
    rintro T (rfl | ⟨T', h1, rfl⟩)
    · rw [sub_self, abs_zero]; linarith
    · rcases le_total E.tamb T' with e | e
      · rw [max_eq_left e]; exact h1
      · rw [max_eq_right e, abs_of_nonpos (by linarith)]
        rw [abs_le] at h1
        linarith [h1.1]
  have hmin' : ¬E.dudt ≤ -ebal E 0 E.tmin k kp := by
    have := (ebal_pos S.rad hs hb S.tmin.le).mpr hmin
    rw [ebal_split] at this
    linarith
  have hE : ∀ B il, searched t i E (decide (E.dudt ≤ -ebal E 0 temp k kp)) c = some (B, il) →
      ∀ fuel, equiTemp t i E fuel temp = ended t i E fuel k kp il B := by
    intro B il e fuel
    simp only [equiTemp, (S.flat _).1, (S.flat _).2, S.entry, hmin', and_false, if_false, e]
  have hin : ¬(c = 0 ∨ c + 1 ≥ t.ntemp) := by omega
  rcases hside with ⟨h1, h2⟩ | ⟨h1, h2⟩
  · have hheat : ¬E.dudt ≤ -ebal E 0 temp k kp := by
      have := (ebal_pos S.rad hs hb ht.le).mpr h1
      rw [ebal_split] at this
      linarith
    obtain ⟨B, jh, e1, e2⟩ := up_spec S.flat S.rad hs hb (t.ntemp - 1 - (c + 1)) (c + 1) (heatStart t i E c) (T_pos t _)
      (hlow.trans hmin) (T_pos t _) (by simp only [heatStart, (S.flat _).1, (S.flat _).2])
      (by simp only [heatStart, (S.flat _).1, (S.flat _).2]) (S.flat _).1 (S.flat _).2 rfl
      (by rw [show c + 1 + (t.ntemp - 1 - (c + 1)) = t.ntemp - 1 by omega]; exact h2)
    have e3 : searched t i E (decide (E.dudt ≤ -ebal E 0 temp k kp)) c = some (B, jh - 1) := by
      rw [searched, if_neg hin, if_neg (by simpa using hheat), e1]
      rfl
    obtain ⟨n0, hn0⟩ := ended_spec S.flat S.rad hs hb B e2 (jh - 1)
    refine ⟨n0, fun fuel hf => ?_⟩
    obtain ⟨T, g1, g2⟩ := hn0 fuel hf
    exact ⟨T, by rw [hE _ _ e3, g1], conv T g2⟩
  · have hcool : E.dudt ≤ -ebal E 0 temp k kp := by
      by_contra hcon
      have : 0 < ebal E E.dudt temp k kp := by rw [ebal_split]; linarith
      have := (ebal_pos S.rad hs hb ht.le).mp this
      linarith
    have hbl : 0 < (coolStart t i E c).bl := by
      simp only [coolStart, (S.flat _).1, (S.flat _).2]
      exact (ebal_pos S.rad hs hb (T_pos t _).le).mpr (hlow.trans hmin)
    have hbh : (coolStart t i E c).bh ≤ 0 := by
      simp only [coolStart, (S.flat _).1, (S.flat _).2]
      by_contra hcon
      have := (ebal_pos S.rad hs hb (T_pos t _).le).mp (not_le.mp hcon)
      linarith
    have e3 : searched t i E (decide (E.dudt ≤ -ebal E 0 temp k kp)) c = some (coolStart t i E c, c - 1) := by
      rw [searched, if_neg hin, if_pos (by simpa using hcool)]
      exact down_stop _ _ (by have := mul_nonpos_of_nonneg_of_nonpos hbl.le hbh; linarith)
    obtain ⟨n0, hn0⟩ := ended_spec S.flat S.rad hs hb (coolStart t i E c)
      ⟨T_pos t _, hlow.trans hmin, h2, by simp only [coolStart, (S.flat _).1, (S.flat _).2], (S.flat _).1, (S.flat _).2⟩ (c - 1)
    refine ⟨n0, fun fuel hf => ?_⟩
    obtain ⟨T, g1, g2⟩ := hn0 fuel hf
    exact ⟨T, by rw [hE _ _ e3, g1], conv T g2⟩

/-- **C75, the lowest temperature.** Gas whose equilibrium is at or below the lowest temperature tends to that. -/
theorem C75_floor (t : Table) (i : ℕ) (E : Env) (k kp : ℝ) (c : ℕ) (S : Setting t i E k kp c) (fuel : ℕ) (temp Ts : ℝ)
    (ht : 0 < temp) (hs : 0 < Ts) (hT : Equilibrium E.rad E.tamb E.col2 k kp E.dudt Ts) (h1 : Ts ≤ E.tmin) (h2 : Ts ≤ temp) :
    equiTemp t i E fuel temp = .found E.tmin := by
  have hb := (equi_iff S.rad).mpr hT
  have key : ∀ T, 0 < T → Ts ≤ T → E.dudt ≤ -ebal E 0 T k kp := by
    intro T hT0 hTs
    by_contra hcon
    have : 0 < ebal E E.dudt T k kp := by rw [ebal_split]; linarith
    have := (ebal_pos S.rad hs hb hT0.le).mp this
    linarith
  simp only [equiTemp, (S.flat _).1, (S.flat _).2, S.entry]
  rw [if_pos ⟨key temp ht h2, key E.tmin S.tmin h1⟩]

/-- **C75, negation: gas that cools.** The search for the equilibrium starts from the lowest temperature and not from that
of the gas, and gas that cools looks for it among still lower temperatures (EnergyRadws.cpp:434, 446-472): whenever the
equilibrium is above the second next entry the search runs past the first entry of the table. -/
theorem C75_cool_fails (t : Table) (i : ℕ) (E : Env) (k kp : ℝ) (c : ℕ) (S : Setting t i E k kp c) (fuel : ℕ) (temp Ts : ℝ)
    (ht : 0 < temp) (hs : 0 < Ts) (hmin : E.tmin < Ts) (hT : Equilibrium E.rad E.tamb E.col2 k kp E.dudt Ts)
    (h1 : Ts ≤ temp) (h2 : t.T (c + 1) < Ts) :
    equiTemp t i E fuel temp = .outside := by
  have hb := (equi_iff S.rad).mpr hT
  have hmin' : ¬E.dudt ≤ -ebal E 0 E.tmin k kp := by
    have := (ebal_pos S.rad hs hb S.tmin.le).mpr hmin
    rw [ebal_split] at this
    linarith
  have hcool : E.dudt ≤ -ebal E 0 temp k kp := by
    by_contra hcon
    have : 0 < ebal E E.dudt temp k kp := by rw [ebal_split]; linarith
    have := (ebal_pos S.rad hs hb ht.le).mp this
    linarith
  have e3 : searched t i E (decide (E.dudt ≤ -ebal E 0 temp k kp)) c = none := by
    rw [searched]
    by_cases hin : c = 0 ∨ c + 1 ≥ t.ntemp
    · rw [if_pos hin]
    rw [if_neg hin, if_pos (by simpa using hcool)]
    have hlow := S.below (by omega)
    refine down_outside S.flat S.rad hs hb _ _ ?_ ?_ ?_
    · simp only [coolStart, (S.flat _).1, (S.flat _).2]
      exact (ebal_pos S.rad hs hb (T_pos t _).le).mpr (hlow.trans hmin)
    · simp only [coolStart, (S.flat _).1, (S.flat _).2]
      exact (ebal_pos S.rad hs hb (T_pos t _).le).mpr h2
    · intro j hj
      exact (T_lt (S.sorted j (c - 1) hj (by omega))).trans (hlow.trans hmin)
  simp only [equiTemp, (S.flat _).1, (S.flat _).2, S.entry, hmin', and_false, if_false, e3]

/-- **C75, negation: tables that begin at the lowest temperature.** If the first entry is the nearest to the lowest
temperature the search reads before the table whatever the gas does, unless it tends to the lowest temperature. -/
theorem C75_first_fails (t : Table) (i : ℕ) (E : Env) (k kp : ℝ) (S : Setting t i E k kp 0) (fuel : ℕ) (temp Ts : ℝ)
    (hs : 0 < Ts) (hmin : E.tmin < Ts) (hT : Equilibrium E.rad E.tamb E.col2 k kp E.dudt Ts) :
    equiTemp t i E fuel temp = .outside := by
  have hb := (equi_iff S.rad).mpr hT
  have hmin' : ¬E.dudt ≤ -ebal E 0 E.tmin k kp := by
    have := (ebal_pos S.rad hs hb S.tmin.le).mpr hmin
    rw [ebal_split] at this
    linarith
  have e3 : ∀ b, searched t i E b 0 = none := fun b => by rw [searched, if_pos (Or.inl rfl)]
  simp only [equiTemp, (S.flat _).1, (S.flat _).2, S.entry, hmin', and_false, if_false, e3]

/-! ### the way to the equilibrium -/

/-- **C75, relaxation.** With a positive thermal time the energy moves from its value towards the equilibrium and never
past it, gets nearer all the time, begins at the rate of heating by flow and radiation, and misses the equilibrium by less
than `e⁻⁴⁰` of the way where the code sets it to that. -/
theorem C75_relax (small u ueq rate dudt : ℝ) (hs : 0 < small) (htau : small < (ueq - u) / (dudt + rate)) :
    let tau := (ueq - u) / (dudt + rate)
    integrate small u ueq tau 0 = u ∧ HasDerivAt (integrate small u ueq tau) (dudt + rate) 0 ∧
    (∀ dt, 0 ≤ dt → min u ueq ≤ integrate small u ueq tau dt ∧ integrate small u ueq tau dt ≤ max u ueq) ∧
    (∀ dt dt', 0 ≤ dt → dt ≤ dt' → |integrate small u ueq tau dt' - ueq| ≤ |integrate small u ueq tau dt - ueq|) ∧
    ∀ dt, 40 * tau ≤ dt → integrate small u ueq tau dt = ueq ∧
      |u * exp (-dt / tau) + ueq * (1 - exp (-dt / tau)) - ueq| ≤ exp (-40) * |u - ueq| := by
  intro tau
  have ht : 0 < tau := hs.trans htau
  have hn : ¬tau ≤ small := not_le.mpr htau
  have hr : dudt + rate ≠ 0 := by
    intro h
    have : tau = 0 := by simp only [tau, h, div_zero]
    linarith
  have e1 : ∀ dt, dt < 40 * tau → integrate small u ueq tau dt = u * exp (-dt / tau) + ueq * (1 - exp (-dt / tau)) := by
    intro dt h
    rw [integrate, if_neg hn, if_pos h]
  have e2 : ∀ dt, 40 * tau ≤ dt → integrate small u ueq tau dt = ueq := by
    intro dt h
    rw [integrate, if_neg hn, if_neg (not_lt.mpr h)]
  have diff : ∀ dt, u * exp (-dt / tau) + ueq * (1 - exp (-dt / tau)) - ueq = exp (-dt / tau) * (u - ueq) := fun dt => by ring
  have expo : ∀ dt, 0 ≤ dt → exp (-dt / tau) ≤ 1 := by
    intro dt h
    rw [Real.exp_le_one_iff]
    exact div_nonpos_of_nonpos_of_nonneg (by linarith) ht.le
  refine ⟨?_, ?_, ?_, ?_, ?_⟩
  · rw [e1 0 (by linarith)]; simp
  · have hd : HasDerivAt (fun dt => u * exp (-dt / tau) + ueq * (1 - exp (-dt / tau))) (dudt + rate) 0 := by
      have h1 : HasDerivAt (fun dt : ℝ => exp (-dt / tau)) (exp (-0 / tau) * (-1 / tau)) 0 :=
        (((hasDerivAt_id (0 : ℝ)).fun_neg).div_const tau).exp
      have h2 := (h1.const_mul u).fun_add ((h1.const_sub 1).const_mul ueq)
      refine h2.congr_deriv ?_
      have : tau ≠ 0 := ht.ne'
      have e3 : dudt + rate = (ueq - u) / tau := by
        have hne : ueq - u ≠ 0 := by
          intro h
          have : tau = 0 := by simp only [tau, h, zero_div]
          linarith
        simp only [tau]
        field_simp
      rw [e3]
      simp
      ring
    refine hd.congr_of_eventuallyEq ?_
    have : Set.Iio (40 * tau) ∈ nhds (0 : ℝ) := Iio_mem_nhds (by linarith)
    filter_upwards [this] with dt hdt
    exact e1 dt hdt
  · intro dt h0
    rcases lt_or_ge dt (40 * tau) with h | h
    · rw [e1 dt h]
      have p := expo dt h0
      have q := (Real.exp_pos (-dt / tau)).le
      set x := exp (-dt / tau)
      rcases le_total u ueq with e | e
      · rw [min_eq_left e, max_eq_right e]; constructor <;> nlinarith
      · rw [min_eq_right e, max_eq_left e]; constructor <;> nlinarith
    · rw [e2 dt h]; exact ⟨min_le_right _ _, le_max_right _ _⟩
  · intro dt dt' h0 hd
    rcases lt_or_ge dt' (40 * tau) with h | h
    · rw [e1 dt' h, e1 dt (by linarith), diff, diff, abs_mul, abs_mul, Real.abs_exp, Real.abs_exp]
      apply mul_le_mul_of_nonneg_right _ (abs_nonneg _)
      rw [Real.exp_le_exp]
      exact div_le_div_of_nonneg_right (by linarith) ht.le
    · rw [e2 dt' h, sub_self, abs_zero]; exact abs_nonneg _
  · intro dt h
    refine ⟨e2 dt h, ?_⟩
    rw [diff, abs_mul, Real.abs_exp]
    apply mul_le_mul_of_nonneg_right _ (abs_nonneg _)
    rw [Real.exp_le_exp, div_le_iff₀ ht]
    linarith

/-- **C75, negation: frozen gas.** The energy of the equilibrium is that of the nearest entry (EnergyRadws.cpp:384-386). Gas
that is being heated but is above that entry gets a negative thermal time and keeps its energy for ever. -/
theorem C75_frozen_fails (t : Table) (i : ℕ) (E : Env) (small temp u Teq : ℝ) (hs : 0 < small)
    (hheat : 0 < E.dudt + ebal E 0 temp (t.kappa i (t.iTemp (logb 10 temp))) (t.kappap i (t.iTemp (logb 10 temp))))
    (hne : ebal E 0 Teq (t.kappa i (t.iTemp (logb 10 Teq))) (t.kappap i (t.iTemp (logb 10 Teq))) ≠
      ebal E 0 temp (t.kappa i (t.iTemp (logb 10 temp))) (t.kappap i (t.iTemp (logb 10 temp))))
    (hbelow : t.energy i (t.iTemp (logb 10 Teq)) ≤ u) (dt : ℝ) :
    integrate small u (thermal t i E temp u Teq).1 (thermal t i E temp u Teq).2 dt = u := by
  have : (thermal t i E temp u Teq).2 ≤ small := by
    simp only [thermal]
    rw [if_neg hne]
    exact (div_nonpos_of_nonpos_of_nonneg (by linarith) hheat.le).trans hs.le
  rw [integrate, if_pos this]

/-! ### the implicit update of the meshless schemes -/

theorem Radws.implicit_iff {E : Env} {k kp g mu u dt T : ℝ} :
    Gas.balance E u dt ⟨T, k, kp, g, mu⟩ = 0 ↔ Implicit E.rad E.tamb E.col2 k kp g mu E.dudt u dt T := by
  simp only [Gas.balance, Gas.heating, ebal, Implicit]
  constructor
  · intro h; linear_combination h
  · intro h; linear_combination h

/-- **C75, partial: the implicit update.** For an ideal gas with the same opacities at all temperatures, hot gas aside, the
update ends; either the change is negligible, or the heating returned is that at a temperature which solves the implicit
equation to the tolerance. Missing: properties that change between the entries, which are interpolated the wrong way round
(`C75_mirror_fails`), gas near or above the last entry (`C75_hot_fails`), solutions at an entry. -/
theorem C75_implicit_partial (t : Table) (E : Env) (k kp g mu tol rho u temp dt Ts : ℝ) (hf : Ideal t (t.iDens rho) k kp g mu)
    (h : Rad E k kp) (hg : 0 < mu * (g - 1)) (hdt : 0 ≤ dt) (ht : 0 < tol) (ht1 : tol ≤ 1) (hs : 0 < Ts)
    (hT : Implicit E.rad E.tamb E.col2 k kp g mu E.dudt u dt Ts) (hne : ∀ c, t.T c ≠ Ts)
    (hsort : ∀ j l, j < l → l < t.ntemp → t.temp j < t.temp l)
    (hc : t.iTemp (logb 10 temp) + 1 < t.ntemp) (htop : Ts ≤ t.T (t.ntemp - 1)) :
    ∃ n0, ∀ fuel ≥ n0, ∃ x, implicit t E fuel tol rho u temp dt = .heating x ∧
      ((x = ebal E E.dudt temp k kp ∧ |x * dt| < tol * u) ∨
        ∃ T, x = ebal E 0 T k kp ∧ 0 < T ∧ |T - Ts| ≤ tol * max T Ts) := by
  have hb := implicit_iff.mpr hT
  set i := t.iDens rho with hi
  set c := t.iTemp (logb 10 temp) with hcdef
  have hk : ∀ j, t.kappa i j = k ∧ t.kappap i j = kp := fun j =>
    ⟨congrArg Gas.k (hf j), congrArg Gas.kp (hf j)⟩
  by_cases hsm : |ebal E E.dudt temp k kp * dt| < tol * u
  · refine ⟨0, fun fuel _ => ⟨_, ?_, Or.inl ⟨rfl, hsm⟩⟩⟩
    simp only [implicit, ← hi, ← hcdef, hk]
    rw [if_pos hsm]
  have ends : ∃ Tl Th, implEnds t i E u dt c = some (⟨Tl, k, kp, g, mu⟩, ⟨Th, k, kp, g, mu⟩) ∧ 0 ≤ Tl ∧ Tl < Ts ∧ Ts ≤ Th := by
    rw [implEnds]
    by_cases hlt : t.T c < Ts
    · have hneg : (t.gas i c).balance E u dt < 0 := by
        rw [hf c]; exact (balance_neg_iff h hdt hg hs hb (T_pos t c).le).mpr hlt
      rw [if_pos hneg]
      exact implUp_spec h hdt hg hs hb hf _ c hlt (by
        rw [show c + 1 + (t.ntemp - 1 - (c + 1)) = t.ntemp - 1 by omega]; exact htop)
    · have hneg : ¬(t.gas i c).balance E u dt < 0 := by
        rw [hf c]; intro hcon; exact hlt ((balance_neg_iff h hdt hg hs hb (T_pos t c).le).mp hcon)
      rw [if_neg hneg]
      obtain ⟨Tl, Th, e1, e2⟩ := implDown_spec h hdt hg hs hb hf hne c
        (lt_of_le_of_lt (not_lt.mp hlt) (T_lt (hsort c (c + 1) (by omega) hc)))
      exact ⟨Tl, Th, by rw [e1], e2⟩
  obtain ⟨Tl, Th, e1, e2, e3, e4⟩ := ends
  have hp : 0 < tol * Ts := mul_pos ht hs
  obtain ⟨m, hm⟩ := pow_unbounded_of_one_lt ((Th - Tl) / (tol * Ts)) (one_lt_two (α := ℝ))
  refine ⟨m + 1, fun fuel hfu => ?_⟩
  obtain ⟨f, rfl⟩ : ∃ f, fuel = f + 1 := ⟨fuel - 1, by omega⟩
  have hw : Th - Tl ≤ 2 ^ f * (tol * Ts) := by
    rw [div_lt_iff₀ hp] at hm
    refine hm.le.trans (mul_le_mul_of_nonneg_right ?_ hp.le)
    exact pow_le_pow_right₀ (by norm_num) (by omega)
  obtain ⟨T, g1, g2, g3⟩ := implRefine_spec h hdt hg hs hb ht ht1 Tl Th f Tl Th
    (Gas.balance E u dt ⟨Tl, k, kp, g, mu⟩) e2 e3 e4 ((balance_neg_iff h hdt hg hs hb e2).mpr e3) hw
  refine ⟨ebal E 0 T k kp, ?_, Or.inr ⟨T, rfl, g2, g3⟩⟩
  simp only [implicit, ← hi, ← hcdef, hk]
  rw [if_neg hsm, if_neg (by omega), e1]
  simp only [g1]
  congr 1
  simp only [Gas.heating, ebal_split]
  ring

/-- **C75, negation: hot gas.** Gas whose nearest entry is the last reads beyond the table (EnergyRadws.cpp:587). -/
theorem C75_hot_fails (t : Table) (E : Env) (fuel : ℕ) (tol rho u temp dt : ℝ) (hn : 0 < t.ntemp)
    (hsort : ∀ j l, j ≤ l → l < t.ntemp → t.temp j ≤ t.temp l) (hot : t.temp (t.ntemp - 1) ≤ logb 10 temp)
    (hlast : ∀ j, j < t.ntemp - 1 → t.temp j < t.temp (t.ntemp - 1))
    (hbig : tol * u ≤ |ebal E E.dudt temp (t.kappa (t.iDens rho) (t.ntemp - 1)) (t.kappap (t.iDens rho) (t.ntemp - 1)) * dt|) :
    implicit t E fuel tol rho u temp dt = .outside := by
  have hc : t.iTemp (logb 10 temp) = t.ntemp - 1 := by
    obtain ⟨h1, h2⟩ := closest_spec t.temp t.ntemp (logb 10 temp) hn hsort
    rw [Table.iTemp]
    by_contra hcon
    have h3 := hlast (closest t.temp t.ntemp (logb 10 temp)) (by omega)
    have h4 := h2 (t.ntemp - 1) (by omega)
    rw [abs_of_nonpos (by linarith), abs_of_nonpos (by linarith)] at h4
    linarith
  simp only [implicit, hc]
  rw [if_neg (not_lt.mpr hbig), if_pos (by omega)]

/-- **C75, negation: interpolation.** Between two entries the properties of the gas are those at the temperature mirrored in
the middle (EnergyRadws.cpp:673-679): at the upper end those of the lower entry, and the reverse. -/
theorem C75_mirror_fails (lo hi : Gas) (hne : lo.T < hi.T) (x : ℝ) :
    let Tc := lo.T + x * (hi.T - lo.T)
    (between lo hi Tc).k = hi.k + x * (lo.k - hi.k) ∧ (between lo hi Tc).kp = hi.kp + x * (lo.kp - hi.kp) ∧
    (between lo hi Tc).g = hi.g + x * (lo.g - hi.g) ∧ (between lo hi Tc).mu = hi.mu + x * (lo.mu - hi.mu) ∧
    (between lo hi Tc).T = Tc := by
  intro Tc
  have h : hi.T - lo.T ≠ 0 := by linarith [hne] |> fun (h : 0 < hi.T - lo.T) => h.ne'
  have hf : (hi.T - Tc) / (hi.T - lo.T) = 1 - x := by
    simp only [Tc]
    field_simp
    ring
  refine ⟨?_, ?_, ?_, ?_, rfl⟩ <;> simp only [between, hf] <;> ring

open FvStep in
/-- **C75, cooling in the meshless schemes.** Without fluxes of mass along the gravity the internal energy at the end of the
step is that of the update, bounded so that at least a twentieth is left. -/
theorem C75_meshless {n : ℕ} (p : Part n ℝ) (heating : ℝ) (hm : 0 < p.Q0.mass) (hd : p.dQ = Cons.zero)
    (hr : p.rdmdt = fun _ => 0) (hdt : 0 < p.dt) :
    let u := (endCons { p with cooling := 0 }).internal
    let u' := (endCons { p with cooling := cooling p.Q0.mass u p.dt heating }).internal
    u' = u + max (heating * p.dt) (-(95 / 100) * u) ∧ (0 < u → 1 / 20 * u ≤ u') := by
  intro u u'
  have h1 := endCons_internal (p := { p with cooling := 0 }) hm.ne' hd hr
  have h2 := endCons_internal (p := { p with cooling := cooling p.Q0.mass u p.dt heating }) hm.ne' hd hr
  have e1 : u' = u + max heating (-(95 / 100) * u / p.dt) * p.dt := by
    show (endCons { p with cooling := cooling p.Q0.mass u p.dt heating }).internal =
      (endCons { p with cooling := 0 }).internal + _
    rw [h1, h2]
    simp only [cooling]
    have : p.Q0.mass ≠ 0 := hm.ne'
    field_simp
    ring
  have e2 : max heating (-(95 / 100) * u / p.dt) * p.dt = max (heating * p.dt) (-(95 / 100) * u) := by
    rw [max_mul_of_nonneg _ _ hdt.le, div_mul_cancel₀ _ hdt.ne']
  rw [e2] at e1
  refine ⟨e1, fun hu => ?_⟩
  rw [e1]
  linarith [le_max_right (heating * p.dt) (-(95 / 100) * u)]

/-! ### threads -/

/-- **C75, partial: one ambient temperature for each particle.** If the threads take turns, or nothing sets the shared
variable, every particle uses its own. Missing: any other order of the threads (`C75_race_fails`). -/
theorem C75_race_partial (amb : ℕ → ℝ) (l : List ℕ) (s : ℝ × (ℕ → ℝ)) (i : ℕ) :
    (i ∈ l → (run amb (l.flatMap fun j => [.set j, .use j]) s).2 i = amb i) ∧
    (i ∈ l → (run amb (l.map .use) s).2 i = s.1) := by
  have keep : ∀ (l : List ℕ) (s : ℝ × (ℕ → ℝ)), i ∉ l → (run amb (l.flatMap fun j => [.set j, .use j]) s).2 i = s.2 i := by
    intro l
    induction l with
    | nil => intro s _; rfl
    | cons j l ih =>
      intro s hi
      simp only [List.mem_cons, not_or] at hi
      show (run amb (l.flatMap fun j => [.set j, .use j]) (amb j, Function.update s.2 j (amb j))).2 i = _
      rw [ih _ hi.2]
      exact Function.update_of_ne hi.1 _ _
  have keep2 : ∀ (l : List ℕ) (s : ℝ × (ℕ → ℝ)), i ∉ l → (run amb (l.map .use) s).2 i = s.2 i := by
    intro l
    induction l with
    | nil => intro s _; rfl
    | cons j l ih =>
      intro s hi
      simp only [List.mem_cons, not_or] at hi
      show (run amb (l.map .use) (s.1, Function.update s.2 j s.1)).2 i = _
      rw [ih _ hi.2]
      exact Function.update_of_ne hi.1 _ _
  constructor
  · induction l generalizing s with
    | nil => intro h; simp at h
    | cons j l ih =>
      intro h
      show (run amb (l.flatMap fun j => [.set j, .use j]) (amb j, Function.update s.2 j (amb j))).2 i = _
      by_cases hi : i ∈ l
      · exact ih _ hi
      · have : i = j := by simpa [hi] using h
        rw [keep l _ hi, this]
        exact Function.update_self _ _ _
  · induction l generalizing s with
    | nil => intro h; simp at h
    | cons j l ih =>
      intro h
      show (run amb (l.map .use) (s.1, Function.update s.2 j s.1)).2 i = _
      by_cases hi : i ∈ l
      · exact ih _ hi
      · have : i = j := by simpa [hi] using h
        rw [keep2 l _ hi, this]
        exact Function.update_self _ _ _

/-- **C75, negation: one variable for all threads.** `temp_amb` is shared by the threads, each of which sets it before it uses
it (EnergyRadws.cpp:171, 179; 222, 245): with two threads a particle can cool towards the surroundings of another. -/
theorem C75_race_fails (amb : ℕ → ℝ) (h : amb 0 ≠ amb 1) (s : ℝ × (ℕ → ℝ)) :
    (run amb [.set 0, .set 1, .use 0, .use 1] s).2 0 ≠ amb 0 := by
  simp only [run]
  rw [Function.update_of_ne (by norm_num), Function.update_self]
  exact h.symm

/-! ### examples -/

namespace Radws

theorem toy_entry (v : ℝ) (c : ℕ) (hc : c < 4) (h : |(c : ℝ) - v| < 1 / 2) : toy.iTemp v = c := by
  obtain ⟨h1, h2⟩ := closest_spec toy.temp toy.ntemp v (by simp [toy]) (by
    intro j k h _; simp only [toy]; exact_mod_cast h)
  have h3 := h2 c hc
  rw [Table.iTemp]
  set d := closest toy.temp toy.ntemp v
  have h4 : |(d : ℝ) - v| ≤ |(c : ℝ) - v| := h3
  have h5 : |(d : ℝ) - c| < 1 := by
    have h6 := h4.trans_lt h
    rw [abs_lt] at h h6 ⊢
    constructor <;> linarith [h6.1, h6.2, h.1, h.2]
  rw [abs_lt] at h5
  have h6 : (d : ℝ) < c + 1 := by linarith [h5.2]
  have h7 : (c : ℝ) < d + 1 := by linarith [h5.1]
  have h6' : d < c + 1 := by exact_mod_cast h6
  have h7' : c < d + 1 := by exact_mod_cast h7
  omega

theorem toy_T (c : ℕ) : toy.T c = 10 ^ c := by
  simp only [Table.T, toy, Real.rpow_natCast]

theorem toy_log (c : ℕ) : logb 10 ((10 : ℝ) ^ c) = c := by
  rw [← Real.rpow_natCast]; exact Real.logb_rpow (by norm_num) (by norm_num)

/-- surroundings of temperature 5, heating for which the equilibrium is `Ts`, lowest temperature `tmin` -/
noncomputable def toyEnv (Ts tmin : ℝ) : Env where
  rad := 1
  tamb := 5
  col2 := 1
  dudt := 2 * (Ts ^ 4 - 5 ^ 4)
  tmin := tmin

theorem toyEnv_rad (Ts tmin : ℝ) : Rad (toyEnv Ts tmin) 1 1 := ⟨by simp [toyEnv], by simp only [toyEnv]; norm_num⟩

theorem toyEnv_equi (Ts tmin : ℝ) :
    Equilibrium (toyEnv Ts tmin).rad (toyEnv Ts tmin).tamb (toyEnv Ts tmin).col2 1 1 (toyEnv Ts tmin).dudt Ts := by
  simp only [Equilibrium, toyEnv]; ring

theorem toy_setting (Ts : ℝ) (c : ℕ) (hc : c < 4) : Setting toy 0 (toyEnv Ts (10 ^ c)) 1 1 c where
  flat := fun _ => ⟨rfl, rfl⟩
  rad := toyEnv_rad _ _
  tmin := by simp only [toyEnv]; positivity
  sorted := by intro j l h _; simp only [toy]; exact_mod_cast h
  entry := by
    have : (toyEnv Ts (10 ^ c)).tmin = 10 ^ c := rfl
    rw [this, toy_log]
    exact toy_entry _ c hc (by simp)
  some_ := by simp [toy]

end Radws

/-- the nearest entry to 1.3 is the second -/
example : toy.iTemp (13 / 10) = 1 := toy_entry _ 1 (by norm_num) (by rw [abs_lt]; norm_num)

example : toy.pressure 3 (toy.energyFromPressure 3 7) = 7 :=
  C75_inverse_partial toy 3 7 (3 / 2) (by norm_num) (by norm_num) fun _ => rfl

example : let f : ℕ → ℝ := fun j => (j : ℝ) ^ 2
    let l := bisectIdx f 5 0 (4 - 1)
    l + 1 < 4 ∧ f l ≤ 5 ∧ 5 ≤ f (l + 1) := C75_pressure_entry (fun j : ℕ => (j : ℝ) ^ 2) 4 5 (by norm_num) (by norm_num) (by norm_num)

/-- gas of temperature 12 finds its equilibrium 20 -/
example : ∃ n0, ∀ fuel ≥ n0, ∃ T, equiTemp toy 0 (toyEnv 20 (10 ^ 1)) fuel 12 = .found T ∧ |T - 20| ≤ T / 2000 :=
  C75_equilibrium_partial toy 0 _ 1 1 1 (toy_setting 20 1 (by norm_num)) (by norm_num) (by simp [toy]) 12 20 (by norm_num)
    (by norm_num) (by norm_num [toyEnv]) (by norm_num [toyEnv]) (by norm_num [toyEnv]) (toyEnv_equi _ _)
    (Or.inl ⟨by norm_num, by rw [toy_T]; norm_num [toy]⟩)

/-- gas of temperature 500 that cools to 20 finds it, as 20 is next to the lowest temperature -/
example : ∃ n0, ∀ fuel ≥ n0, ∃ T, equiTemp toy 0 (toyEnv 20 (10 ^ 1)) fuel 500 = .found T ∧ |T - 20| ≤ T / 2000 :=
  C75_equilibrium_partial toy 0 _ 1 1 1 (toy_setting 20 1 (by norm_num)) (by norm_num) (by simp [toy]) 500 20 (by norm_num)
    (by norm_num) (by norm_num [toyEnv]) (by norm_num [toyEnv]) (by norm_num [toyEnv]) (toyEnv_equi _ _)
    (Or.inr ⟨by norm_num, by rw [toy_T]; norm_num⟩)

example : equiTemp toy 0 (toyEnv 7 (10 ^ 1)) 9 500 = .found ((10 : ℝ) ^ 1) :=
  C75_floor toy 0 _ 1 1 1 (toy_setting 7 1 (by norm_num)) 9 500 7 (by norm_num) (by norm_num) (toyEnv_equi _ _)
    (by norm_num [toyEnv]) (by norm_num)

/-- gas of temperature 500 that cools to 200 runs out of the table -/
example (fuel : ℕ) : equiTemp toy 0 (toyEnv 200 (10 ^ 1)) fuel 500 = .outside :=
  C75_cool_fails toy 0 _ 1 1 1 (toy_setting 200 1 (by norm_num)) fuel 500 200 (by norm_num) (by norm_num) (by norm_num [toyEnv])
    (toyEnv_equi _ _) (by norm_num) (by rw [toy_T]; norm_num)

example (fuel : ℕ) : equiTemp toy 0 (toyEnv 20 (10 ^ 0)) fuel 12 = .outside :=
  C75_first_fails toy 0 _ 1 1 (toy_setting 20 0 (by norm_num)) fuel 12 20 (by norm_num) (by norm_num [toyEnv]) (toyEnv_equi _ _)

/-- energy 1, equilibrium 5, rates 1 and 1 -/
example : HasDerivAt (integrate (1 / 100) 1 5 ((5 - 1) / (1 + 1))) (1 + 1) 0 :=
  (C75_relax (1 / 100) 1 5 1 1 (by norm_num) (by norm_num)).2.1

theorem Radws.log20 : |((1 : ℕ) : ℝ) - logb 10 20| < 1 / 2 := by
  have h1 : (1 : ℝ) ≤ logb 10 20 := by
    rw [Real.le_logb_iff_rpow_le (by norm_num) (by norm_num)]; norm_num
  have h2 : logb 10 20 < 3 / 2 := by
    rw [Real.logb_lt_iff_lt_rpow (by norm_num) (by norm_num)]
    have h : ((10 : ℝ) ^ (3 / 2 : ℝ)) ^ 2 = 1000 := by
      rw [← Real.rpow_natCast, ← Real.rpow_mul (by norm_num)]; norm_num
    have hp : (0 : ℝ) ≤ 10 ^ (3 / 2 : ℝ) := by positivity
    nlinarith
  rw [abs_lt]; constructor <;> push_cast <;> linarith

/-- gas of temperature and energy 12 on its way to 20 stays where it is -/
example (dt : ℝ) : integrate (1 / 100) 12 (thermal toy 0 (toyEnv 20 (10 ^ 1)) 12 12 20).1
    (thermal toy 0 (toyEnv 20 (10 ^ 1)) 12 12 20).2 dt = 12 := by
  refine C75_frozen_fails toy 0 _ (1 / 100) 12 12 20 (by norm_num) ?_ ?_ ?_ dt
  · simp only [ebal, toy, toyEnv]; norm_num
  · simp only [ebal, toy, toyEnv]; norm_num
  · rw [toy_entry _ 1 (by norm_num) log20]; simp only [toy]; norm_num

/-- surroundings of temperature 5, and no heating by the flow -/
noncomputable def Radws.still : Env where
  rad := 1
  tamb := 5
  col2 := 1
  dudt := 0
  tmin := 10

theorem Radws.toy_ne (c : ℕ) : toy.T c ≠ 20 := by
  rw [toy_T]
  rcases Nat.lt_or_ge c 2 with h | h
  · interval_cases c <;> norm_num
  · have : (10 : ℝ) ^ 2 ≤ 10 ^ c := pow_le_pow_right₀ (by norm_num) h
    intro h'
    rw [h'] at this
    norm_num at this

/-- very hot gas at the entry of temperature 100 is brought to 20 in one step -/
example : ∃ n0, ∀ fuel ≥ n0, ∃ x, implicit toy still fuel (1 / 1000) 1 318770 (10 ^ 2) 1 = .heating x ∧
    ((x = ebal still still.dudt (10 ^ 2) 1 1 ∧ |x * 1| < 1 / 1000 * 318770) ∨
      ∃ T, x = ebal still 0 T 1 1 ∧ 0 < T ∧ |T - 20| ≤ 1 / 1000 * max T 20) := by
  refine C75_implicit_partial toy still 1 1 (3 / 2) 2 (1 / 1000) 1 318770 (10 ^ 2) 1 20 (fun _ => rfl) ⟨?_, ?_⟩ (by norm_num)
    (by norm_num) (by norm_num) (by norm_num) (by norm_num) ?_ toy_ne ?_ ?_ ?_
  · norm_num [still]
  · norm_num [still]
  · norm_num [Implicit, still]
  · intro j l h _; simp only [toy]; exact_mod_cast h
  · rw [toy_log, toy_entry _ 2 (by norm_num) (by simp)]; simp [toy]
  · rw [toy_T]; norm_num [toy]

example (fuel : ℕ) : implicit toy still fuel (1 / 1000) 1 5 (10 ^ 3) 1 = .outside := by
  refine C75_hot_fails toy still fuel (1 / 1000) 1 5 (10 ^ 3) 1 (by simp [toy]) ?_ ?_ ?_ ?_
  · intro j l h _; simp only [toy]; exact_mod_cast h
  · rw [toy_log]; simp [toy]
  · intro j h; simp only [toy]; exact_mod_cast h
  · simp only [ebal, toy, still]; norm_num

/-- between entries of temperature 1 and 3 and opacity 10 and 20, at temperature 3 the opacity is 10 -/
example : (between ⟨1, 10, 1, 1, 1⟩ ⟨3, 20, 1, 1, 1⟩ 3).k = 10 := by
  have := (C75_mirror_fails ⟨1, 10, 1, 1, 1⟩ ⟨3, 20, 1, 1, 1⟩ (by norm_num) 1).1
  norm_num at this
  exact this

open FvStep in
/-- gas of internal energy 10 -/
noncomputable def Radws.blob : Part 1 ℝ where
  r := fun _ => 0
  v := fun _ => 2
  a := fun _ => 0
  r0 := fun _ => 0
  v0 := fun _ => 2
  a0 := fun _ => 0
  m := 1
  u := 10
  Q0 := ⟨fun _ => 2, 1, 12⟩
  dQ := Cons.zero
  dQdt := Cons.zero
  rdmdt := fun _ => 0
  cooling := 0
  dt := 2
  dtNext := 2
  tlast := 0
  nlast := 0
  nstep := 2
  level := 0
  levelneib := 0
  hydro := true
  active := false
  endts := false
  dead := false

open FvStep in
/-- cooling at the rate 3 takes 6, cooling at the rate 30 takes 9.5 -/
example : (endCons { blob with cooling := cooling 1 10 2 (-3) }).internal = 4 ∧
    (endCons { blob with cooling := cooling 1 10 2 (-30) }).internal = 1 / 2 := by
  have h0 : (endCons { blob with cooling := 0 }).internal = 10 := by
    rw [endCons_internal (by norm_num [blob]) rfl rfl]
    norm_num [blob, Cons.internal, Cons.kinetic]
  have h1 := (C75_meshless blob (-3) (by norm_num [blob]) rfl rfl (by norm_num [blob])).1
  have h2 := (C75_meshless blob (-30) (by norm_num [blob]) rfl rfl (by norm_num [blob])).1
  rw [h0] at h1 h2
  refine ⟨h1.trans ?_, h2.trans ?_⟩ <;> norm_num [blob]

example : (run (fun i => (i : ℝ)) [.set 0, .set 1, .use 0, .use 1] (7, fun _ => 7)).2 0 = 1 := by
  simp only [run]
  rw [Function.update_of_ne (by norm_num), Function.update_self]
  norm_num

end Gandalf
