import Verif.Prop.C24

/-!
# C25 – the artificial viscosity heats and repels, conduction evens out
-/

set_option autoImplicit false
set_option linter.unusedSectionVars false

namespace Gandalf

open Sph

variable {n N : ℕ}

/-- the same parameters with the viscosity switched off -/
def Sph.Par.noVisc (par : Par) : Par :=
  { par with
    avisc := .noav }

/-- the same parameters with the conductivity switched off -/
def Sph.Par.noCond (par : Par) : Par :=
  { par with
    acond := .noac }

namespace Sph

theorem winvrho_nonpos {K : Kernel} {n' : ℕ} (hK : K.Valid n') (sm : ℝ) {p q : Part n} (hp : Good p) (hq : Good q) :
    winvrho K sm p q ≤ 0 := by
  have h1 := wkern_nonpos hK sm (q := q) hp.h hp.hfactor
  have h2 := wkern_nonpos hK sm (q := p) hq.h hq.hfactor
  unfold winvrho
  have : 0 < 1 / p.rho + 1 / q.rho := add_pos (one_div_pos.mpr hp.rho) (one_div_pos.mpr hq.rho)
  refine mul_nonpos_of_nonpos_of_nonneg ?_ this.le
  linarith

/-- the viscosity takes something non-negative off `paux` (which is then more repulsive) -/
theorem viscPaux_nonneg {par : Par} (hpar : par.Good) {K : Kernel} {n' : ℕ} (hK : K.Valid n') (sm : ℝ) {p q : Part n}
    (hp : Good p) (hq : Good q) : 0 ≤ viscPaux par K sm p q := by
  unfold viscPaux
  by_cases h : dvdr sm p q < 0
  · rw [if_pos h]
    have ha : ∀ al, pairAlpha par p q = some al → 0 ≤ al := by
      intro al e
      have := hp.alpha
      have := hq.alpha
      have := hpar.alpha
      unfold pairAlpha at e
      cases hv : par.avisc <;> rw [hv] at e <;> simp at e <;> subst e <;> linarith
    cases e : pairAlpha par p q with
    | none => simp
    | some al =>
      have h0 := ha al e
      have hw := winvrho_nonpos hK sm hp hq
      have hs : 0 ≤ vsignal par sm al p q := by
        unfold vsignal
        have := hp.sound
        have := hq.sound
        have := mul_nonneg (mul_nonneg hpar.beta h0) (neg_nonneg.mpr h.le)
        linarith
      simp only
      have := mul_nonneg (mul_nonneg h0 hs) (mul_nonneg_of_nonpos_of_nonpos h.le hw)
      calc (0 : ℝ) ≤ _ := this
        _ = _ := by ring
  · rw [if_neg h]

theorem viscHeat_nonpos {par : Par} (hpar : par.Good) {K : Kernel} {n' : ℕ} (hK : K.Valid n') (sm : ℝ) {p q : Part n}
    (hp : Good p) (hq : Good q) : viscHeat par K sm p q ≤ 0 := by
  rw [viscHeat_eq]
  by_cases h : dvdr sm p q < 0
  · have h1 := viscPaux_nonneg hpar hK sm hp hq
    have h2 : 0.5 * q.m * dvdr sm p q ≤ 0 := by
      have := mul_nonneg hq.m.le (neg_nonneg.mpr h.le)
      linarith
    exact mul_nonpos_of_nonpos_of_nonneg h2 h1
  · have : viscPaux par K sm p q = 0 := by unfold viscPaux; rw [if_neg h]
    rw [this, mul_zero]

theorem viscPaux_noVisc (par : Par) (K : Kernel) (sm : ℝ) (p q : Part n) : viscPaux par.noVisc K sm p q = 0 := by
  simp [viscPaux, pairAlpha, Par.noVisc]

theorem viscHeat_noVisc (par : Par) (K : Kernel) (sm : ℝ) (p q : Part n) : viscHeat par.noVisc K sm p q = 0 := by
  rw [viscHeat_eq, viscPaux_noVisc, mul_zero]

theorem condHeat_noVisc (par : Par) (K : Kernel) (sm : ℝ) (p q : Part n) :
    condHeat par.noVisc K sm p q = condHeat par K sm p q := rfl

/-- rate of approach of a pair -/
noncomputable def approach (p q : Part n) : ℝ := dot (fun k => q.v k - p.v k) (fun k => q.r k - p.r k)

theorem dvdr_approach (p q : Part n) : 0 ≤ approach p q → 0 ≤ dvdr 0 p q := by
  intro h
  unfold dvdr
  by_cases hd : 0 < drmag 0 (fun k => q.r k - p.r k)
  · have e : (unit 0 fun k => q.r k - p.r k) = fun k => (q.r k - p.r k) / drmag 0 (fun k => q.r k - p.r k) := by
      funext k; unfold unit; exact if_pos hd
    rw [e]
    have : dot q.v (fun k => (q.r k - p.r k) / drmag 0 (fun k => q.r k - p.r k)) -
        dot p.v (fun k => (q.r k - p.r k) / drmag 0 (fun k => q.r k - p.r k)) =
        approach p q / drmag 0 (fun k => q.r k - p.r k) := by
      simp only [approach, dot, ← Finset.sum_sub_distrib, Finset.sum_div]
      exact Finset.sum_congr rfl fun k _ => by ring
    rw [this]
    exact div_nonneg h hd.le
  · have e : (unit 0 fun k => q.r k - p.r k) = fun k => q.r k - p.r k := by
      funext k; unfold unit; exact if_neg hd
    rw [e]
    have : dot q.v (fun k => q.r k - p.r k) - dot p.v (fun k => q.r k - p.r k) = approach p q := by
      simp only [approach, dot, ← Finset.sum_sub_distrib]
      exact Finset.sum_congr rfl fun k _ => by ring
    rw [this]
    exact h

end Sph

/-- Switching the viscosity on never lowers the heating rate of a particle: any parameters, kernel and
neighbour list. -/
theorem C25_viscosity_heats {par : Par} (hpar : par.Good) {K : Kernel} {n' : ℕ} (hK : K.Valid n') (eosP : ℝ)
    {p : Part n} (hp : Good p) {nb : List (Part n)} (hnb : ∀ q ∈ nb, Good q) :
    (hydroForces par.noVisc K eosP p nb).dudt ≤ (hydroForces par K eosP p nb).dudt := by
  simp only [hydroForces, setDalphadt_dudt, foldl_hydro, finish, condHeat_noVisc, viscHeat_noVisc, sub_zero]
  have : (nb.map fun q => condHeat par K 0 p q).sum ≤ (nb.map fun q => condHeat par K 0 p q - viscHeat par K 0 p q).sum := by
    refine List.sum_le_sum fun q hq => ?_
    have := viscHeat_nonpos hpar hK 0 hp (hnb q hq)
    linarith
  linarith

/-- and in the routine with gravity -/
theorem C25_viscosity_heats_gravity {par : Par} (hpar : par.Good) {K : Kernel} {n' : ℕ} (hK : K.Valid n') (sm eosP : ℝ)
    {p : Part n} (hp : Good p) {nb : List (Part n)} (hnb : ∀ q ∈ nb, Good q) :
    (hydroGravForces par.noVisc K sm eosP p nb).dudt ≤ (hydroGravForces par K sm eosP p nb).dudt := by
  simp only [hydroGravForces, setDalphadt_dudt, foldl_hydroGrav, finish, condHeat_noVisc, viscHeat_noVisc, sub_zero]
  have : (nb.map fun q => condHeat par K sm p q).sum ≤ (nb.map fun q => condHeat par K sm p q - viscHeat par K sm p q).sum := by
    refine List.sum_le_sum fun q hq => ?_
    have := viscHeat_nonpos hpar hK sm hp (hnb q hq)
    linarith
  linarith

/-- A neighbour that does not approach exerts no viscous force and gives no viscous heat. -/
theorem C25_only_approaching (par : Par) (K : Kernel) (eosP : ℝ) {p q : Part n} (h : 0 ≤ approach p q) :
    (hydroForces par K eosP p [q]).a = (hydroForces par.noVisc K eosP p [q]).a ∧
    (hydroForces par K eosP p [q]).dudt = (hydroForces par.noVisc K eosP p [q]).dudt := by
  have hd := dvdr_approach p q h
  have e1 : viscPaux par K 0 p q = 0 := by unfold viscPaux; rw [if_neg (not_lt.mpr hd)]
  have e2 : viscHeat par K 0 p q = 0 := by unfold viscHeat; rw [if_neg (not_lt.mpr hd)]
  constructor
  · funext k
    simp only [hydroForces, setDalphadt_a, foldl_hydro, finish]
    simp [e1, viscPaux_noVisc]
  · simp only [hydroForces, setDalphadt_dudt, foldl_hydro, finish]
    simp [e2, viscHeat_noVisc, condHeat_noVisc]

/-- The viscous force of an approaching neighbour points away from it. -/
theorem C25_repels {par : Par} (hpar : par.Good) {K : Kernel} {n' : ℕ} (hK : K.Valid n') (eosP : ℝ) {p q : Part n}
    (hp : Good p) (hq : Good q) :
    ∃ c, 0 ≤ c ∧ ∀ k, (hydroForces par K eosP p [q]).a k - (hydroForces par.noVisc K eosP p [q]).a k =
      -c * (q.r k - p.r k) := by
  have h0 := viscPaux_nonneg hpar hK 0 hp hq
  have e : ∀ k, (hydroForces par K eosP p [q]).a k - (hydroForces par.noVisc K eosP p [q]).a k =
      -(q.m * viscPaux par K 0 p q) * unit 0 (fun k => q.r k - p.r k) k := by
    intro k
    simp only [hydroForces, setDalphadt_a, foldl_hydro, finish]
    simp only [List.map_cons, List.map_nil, List.sum_cons, List.sum_nil, viscPaux_noVisc]
    have : presPaux K 0 p q = presPaux K 0 p q := rfl
    ring
  by_cases hd : 0 < drmag 0 (fun k => q.r k - p.r k)
  · refine ⟨q.m * viscPaux par K 0 p q / drmag 0 (fun k => q.r k - p.r k),
      div_nonneg (mul_nonneg hq.m.le h0) hd.le, fun k => ?_⟩
    rw [e, unit, if_pos hd]
    ring
  · refine ⟨q.m * viscPaux par K 0 p q, mul_nonneg hq.m.le h0, fun k => ?_⟩
    rw [e, unit, if_neg hd]

/-- Over all particles the viscous forces take energy out of the motion. -/
theorem C25_dissipates {par : Par} (hpar : par.Good) {K : Kernel} {n' : ℕ} (hK : K.Valid n') {eosP : Fin N → ℝ}
    {nb : Fin N → Neibs n N} {sys : Fin N → Part n} {S : Finset (Vec n ℝ)} (hS : Symm S) (hg : ∀ i, Good (sys i))
    (hP : ∀ i, eosP i = (sys i).pressure) (hl : ∀ i, Complete K S sys i (nb i)) :
    ∑ i, (sys i).m * dot (sys i).v (updateHydro par K eosP nb sys i).a ≤
      ∑ i, (sys i).m * dot (sys i).v (updateHydro par.noVisc K eosP nb sys i).a := by
  have h1 := C24_energy par hK hS hg hP hl
  have h2 := C24_energy par.noVisc hK hS hg hP hl
  simp only [mul_add, Finset.sum_add_distrib] at h1 h2
  have : ∑ i, (sys i).m * (updateHydro par.noVisc K eosP nb sys i).dudt ≤
      ∑ i, (sys i).m * (updateHydro par K eosP nb sys i).dudt := by
    refine Finset.sum_le_sum fun i _ => mul_le_mul_of_nonneg_left ?_ (hg i).m.le
    have hz : Good (startHydro (zeroAcc (sys i))) := ⟨(hg i).m, (hg i).h, (hg i).rho, (hg i).hfactor, (hg i).sound, (hg i).alpha⟩
    have := C25_viscosity_heats hpar hK (eosP i) hz (nb := copies sys (nb i)) (by
      intro q hq
      simp only [copies, List.mem_map] at hq
      obtain ⟨x, _, rfl⟩ := hq
      exact ⟨(hg x.1).m, (hg x.1).h, (hg x.1).rho, (hg x.1).hfactor, (hg x.1).sound, (hg x.1).alpha⟩)
    simp only [updateHydro, addHydro]
    linarith
  linarith

/-- Conduction carries heat from the hotter to the colder of two particles. -/
theorem C25_conduction (par : Par) {K : Kernel} {n' : ℕ} (hK : K.Valid n') (eosP : ℝ) {p q : Part n}
    (hp : Good p) (hq : Good q) (hu : p.u ≤ q.u) :
    (hydroForces par.noCond K eosP p [q]).dudt ≤ (hydroForces par K eosP p [q]).dudt ∧
    (hydroForces par K eosP q [p]).dudt ≤ (hydroForces par.noCond K eosP q [p]).dudt := by
  have key : 0 ≤ condHeat par K 0 p q := by
    unfold condHeat
    by_cases h : dvdr 0 p q < 0
    · rw [if_pos h]
      have h1 := wkern_nonpos hK 0 (q := q) hp.h hp.hfactor
      have h2 := wkern_nonpos hK 0 (q := p) hq.h hq.hfactor
      have hw := winvrho_nonpos hK 0 hp hq
      have r1 := one_div_pos.mpr hp.rho
      have r2 := one_div_pos.mpr hq.rho
      cases par.acond with
      | noac => simp
      | wadsley2008 =>
        simp only
        have a1 : q.m * dvdr 0 p q * (q.u - p.u) ≤ 0 :=
          mul_nonpos_of_nonpos_of_nonneg (mul_nonpos_of_nonneg_of_nonpos hq.m.le h.le) (sub_nonneg.mpr hu)
        have a2 : 1 / p.rho * wkern K 0 p q + 1 / q.rho * wkern K 0 q p ≤ 0 :=
          add_nonpos (mul_nonpos_of_nonneg_of_nonpos r1.le h1) (mul_nonpos_of_nonneg_of_nonpos r2.le h2)
        exact mul_nonneg_of_nonpos_of_nonpos a1 a2
      | price2008 =>
        simp only
        have a1 : 0.5 * q.m * (p.u - q.u) ≤ 0 :=
          mul_nonpos_of_nonneg_of_nonpos (mul_nonneg (by norm_num) hq.m.le) (sub_nonpos.mpr hu)
        exact mul_nonneg (mul_nonneg (mul_nonneg_of_nonpos_of_nonpos a1 hw) (add_pos r1 r2).le) (Real.sqrt_nonneg _)
    · rw [if_neg h]
  have key2 : condHeat par K 0 q p ≤ 0 := by
    have := condHeat_swap par K 0 p q
    have h2 : q.m * condHeat par K 0 q p ≤ 0 := by
      rw [this]
      have := mul_nonneg hp.m.le key
      linarith
    by_contra hc
    push Not at hc
    have := mul_pos hq.m hc
    linarith
  have e0 : ∀ a b : Part n, condHeat par.noCond K 0 a b = 0 := fun a b => by simp [condHeat, Par.noCond]
  have e1 : ∀ a b : Part n, viscHeat par.noCond K 0 a b = viscHeat par K 0 a b := fun a b => rfl
  constructor
  · simp only [hydroForces, setDalphadt_dudt, foldl_hydro, finish, e0, e1]
    simp only [List.map_cons, List.map_nil, List.sum_cons, List.sum_nil]
    linarith
  · simp only [hydroForces, setDalphadt_dudt, foldl_hydro, finish, e0, e1]
    simp only [List.map_cons, List.map_nil, List.sum_cons, List.sum_nil]
    linarith

/-- Strictly so when the neighbour approaches from within the kernel. -/
theorem C25_heats_strictly {par : Par} (hpar : par.Good) (h97 : par.avisc = .mon97) (ha : 0 < par.alpha_visc)
    {K : Kernel} {n' : ℕ} (hK : K.Valid n') (eosP : ℝ) {p q : Part n} (hp : Good p) (hq : Good q) (hs : 0 < p.sound)
    (hd : dvdr 0 p q < 0) (hw : K.w1 (dist 0 p q * (1 / p.h)) < 0) :
    (hydroForces par.noVisc K eosP p [q]).dudt < (hydroForces par K eosP p [q]).dudt ∧
    ∃ c, 0 < c ∧ ∀ k, (hydroForces par K eosP p [q]).a k - (hydroForces par.noVisc K eosP p [q]).a k =
      -c * unit 0 (fun k => q.r k - p.r k) k := by
  have hwi : winvrho K 0 p q < 0 := by
    have h1 : wkern K 0 p q < 0 := mul_neg_of_pos_of_neg hp.hfactor hw
    have h2 := wkern_nonpos hK 0 (q := p) hq.h hq.hfactor
    unfold winvrho
    have : 0 < 1 / p.rho + 1 / q.rho := add_pos (one_div_pos.mpr hp.rho) (one_div_pos.mpr hq.rho)
    refine mul_neg_of_neg_of_pos ?_ this
    linarith
  have hvs : 0 < vsignal par 0 par.alpha_visc p q := by
    unfold vsignal
    have := hq.sound
    have := mul_nonneg (mul_nonneg hpar.beta ha.le) (neg_nonneg.mpr hd.le)
    linarith
  have hv : 0 < viscPaux par K 0 p q := by
    unfold viscPaux pairAlpha
    rw [if_pos hd, h97]
    have := mul_pos (mul_pos ha hvs) (mul_pos_of_neg_of_neg hd hwi)
    calc (0 : ℝ) < _ := this
      _ = _ := by ring
  constructor
  · have hh : viscHeat par K 0 p q < 0 := by
      rw [viscHeat_eq]
      have := mul_pos (mul_pos hq.m (neg_pos.mpr hd)) hv
      linarith
    simp only [hydroForces, setDalphadt_dudt, foldl_hydro, finish, condHeat_noVisc, viscHeat_noVisc]
    simp only [List.map_cons, List.map_nil, List.sum_cons, List.sum_nil]
    linarith
  · refine ⟨q.m * viscPaux par K 0 p q, mul_pos hq.m hv, fun k => ?_⟩
    simp only [hydroForces, setDalphadt_a, foldl_hydro, finish]
    simp only [List.map_cons, List.map_nil, List.sum_cons, List.sum_nil, viscPaux_noVisc]
    ring

/-! ### a concrete case: the two particles of C24, moving towards each other -/

theorem pairPar_good : pairPar.Good :=
  ⟨by norm_num [pairPar], by norm_num [pairPar], by norm_num [pairPar], by norm_num [pairPar]⟩

/-- particle `i` moves towards the origin -/
noncomputable def closing (i : Fin 2) : Part 3 := pairP 1 (fun k => -pairX i k) (1 + i) 5 (-(34 / 15 * Real.pi)) i

theorem closing_good (i : Fin 2) : Good (closing i) := by
  have := Real.pi_pos
  refine ⟨?_, ?_, ?_, ?_, ?_, ?_⟩ <;> simp only [closing, pairP] <;> norm_num
  exact Real.pi_pos

theorem closing_dvdr : dvdr 0 (closing 0) (closing 1) = -1 := by
  have hd : drmag 0 (fun k => (closing 1).r k - (closing 0).r k) = 1 := by
    have := pair_dist 1 one_pos (fun k => -pairX 0 k) (fun k => -pairX 1 k) (1 + ((0 : Fin 2) : ℕ)) 5
      (-(34 / 15 * Real.pi)) (1 + ((1 : Fin 2) : ℕ)) 5 (-(34 / 15 * Real.pi)) 0 1
    rw [if_neg (by decide)] at this
    simpa [Sph.dist, closing] using this
  have e : (unit 0 fun k => (closing 1).r k - (closing 0).r k) = fun k => (closing 1).r k - (closing 0).r k := by
    funext k
    unfold unit
    rw [hd, if_pos one_pos, div_one]
  unfold dvdr
  rw [e]
  simp only [dot, closing, pairP, Fin.sum_univ_three, pairX_1, pairX_2, pairX_00, pairX_10]
  norm_num

example : (hydroForces pairPar.noVisc (m4Kernel 3) 1 (closing 0) [closing 1]).dudt <
    (hydroForces pairPar (m4Kernel 3) 1 (closing 0) [closing 1]).dudt := by
  refine (C25_heats_strictly pairPar_good rfl (by norm_num [pairPar]) (C30_m4_valid 3 (by decide)) 1 (closing_good 0)
    (closing_good 1) (by norm_num [closing, pairP]) ?_ ?_).1
  · rw [closing_dvdr]; norm_num
  · have hd : dist 0 (closing 0) (closing 1) = 1 := by
      have := pair_dist 1 one_pos (fun k => -pairX 0 k) (fun k => -pairX 1 k) (1 + ((0 : Fin 2) : ℕ)) 5
        (-(34 / 15 * Real.pi)) (1 + ((1 : Fin 2) : ℕ)) 5 (-(34 / 15 * Real.pi)) 0 1
      rw [if_neg (by decide)] at this
      simpa [closing] using this
    have hh : (closing 0).h = 1 := rfl
    rw [hd, hh]
    have := Real.pi_pos
    norm_num [m4Kernel, M4.w1, M4.kernnorm]
    exact Real.pi_pos

end Gandalf
