import Verif.Proof.SphEnergy
import Verif.Prop.C30
import Verif.Prop.C31

/-!
# C24 – SPH forces conserve momentum, angular momentum and energy
-/

set_option autoImplicit false
set_option linter.unusedSectionVars false

namespace Gandalf

open Sph

variable {n N : ℕ}

/-! ### closed forms -/

namespace Sph

theorem updateHydro_a {par : Par} {K : Kernel} {n' : ℕ} (hK : K.Valid n') {eosP : Fin N → ℝ} {nb : Fin N → Neibs n N}
    {sys : Fin N → Part n} {S : Finset (Vec n ℝ)} {i : Fin N} (hg : ∀ i, Good (sys i))
    (hl : Complete K S sys i (nb i)) (k : Fin n) :
    (updateHydro par K eosP nb sys i).a k = ∑ j, ∑ s ∈ S, (sys j).m *
      unit 0 (fun k => (image (sys j) s).r k - (sys i).r k) k *
      (presPaux K 0 (sys i) (image (sys j) s) - viscPaux par K 0 (sys i) (image (sys j) s)) := by
  have e : (updateHydro par K eosP nb sys i).a k = ((copies sys (nb i)).map fun q => q.m *
      unit 0 (fun k => q.r k - (sys i).r k) k * (presPaux K 0 (sys i) q - viscPaux par K 0 (sys i) q)).sum := by
    simp only [updateHydro, addHydro, hydroForces, setDalphadt_a, setDalphadt_atree, foldl_hydro, finish]
    simp only [zeroAcc, startHydro, zero_add, add_zero]
    rfl
  rw [e, sum_complete hl]
  · rfl
  · intro j s hi
    rw [acc_zero hK par le_rfl (hg i).h (q := image (sys j) s) (hg j).h hi, mul_zero]
  · rw [unit_self]; ring

theorem updateHydro_dudt {par : Par} {K : Kernel} {n' : ℕ} (hK : K.Valid n') {eosP : Fin N → ℝ}
    {nb : Fin N → Neibs n N} {sys : Fin N → Part n} {S : Finset (Vec n ℝ)} {i : Fin N} (hg : ∀ i, Good (sys i))
    (hl : Complete K S sys i (nb i)) :
    (updateHydro par K eosP nb sys i).dudt = ∑ j, ∑ s ∈ S,
      (condHeat par K 0 (sys i) (image (sys j) s) - viscHeat par K 0 (sys i) (image (sys j) s) +
       eosP i * (sys i).invomega / ((sys i).rho * (sys i).rho) * ((sys j).m * dvdr 0 (sys i) (image (sys j) s) *
         wkern K 0 (sys i) (image (sys j) s))) := by
  have e : (updateHydro par K eosP nb sys i).dudt = ((copies sys (nb i)).map fun q =>
      condHeat par K 0 (sys i) q - viscHeat par K 0 (sys i) q).sum +
      eosP i * (sys i).invomega / ((sys i).rho * (sys i).rho) *
      ((copies sys (nb i)).map fun q => q.m * dvdr 0 (sys i) q * wkern K 0 (sys i) q).sum := by
    simp only [updateHydro, addHydro, hydroForces, setDalphadt_dudt, foldl_hydro, finish]
    simp only [zeroAcc, startHydro, zero_add, zero_sub]
    have hr := (hg i).rho.ne'
    change ((copies sys (nb i)).map fun q => condHeat par K 0 (sys i) q - viscHeat par K 0 (sys i) q).sum -
      eosP i * (-((copies sys (nb i)).map fun q => q.m * dvdr 0 (sys i) q * wkern K 0 (sys i) q).sum *
        (1 / (sys i).rho)) * (1 / (sys i).rho) * (sys i).invomega = _
    field_simp
    ring
  rw [e, sum_complete hl, sum_complete hl]
  · simp only [Finset.sum_add_distrib, Finset.mul_sum]
    rfl
  · intro j s hi
    rw [wkern_zero hK le_rfl (hg i).h hi, mul_zero]
  · rw [dvdr_self]; ring
  · intro j s hi
    exact heat_zero hK par le_rfl (hg i).h (q := image (sys j) s) (hg j).h hi
  · exact heat_self K par 0 (sys i)

end Sph

/-- The accelerations of `UpdateAllSphHydroForces` add up to no force, for any number of particles, any
viscosity and conductivity option, open or periodic, and any complete neighbour lists. -/
theorem C24_no_net_force (par : Par) {K : Kernel} {n' : ℕ} (hK : K.Valid n') (eosP : Fin N → ℝ)
    {nb : Fin N → Neibs n N} {sys : Fin N → Part n} {S : Finset (Vec n ℝ)} (hS : Symm S) (hg : ∀ i, Good (sys i))
    (hl : ∀ i, Complete K S sys i (nb i)) (k : Fin n) :
    ∑ i, (sys i).m * (updateHydro par K eosP nb sys i).a k = 0 := by
  simp only [updateHydro_a hK hg (hl _), Finset.mul_sum]
  refine sum_image_antisymm S hS (fun i j s => (sys i).m * ((sys j).m *
    unit 0 (fun k => (image (sys j) s).r k - (sys i).r k) k *
    (presPaux K 0 (sys i) (image (sys j) s) - viscPaux par K 0 (sys i) (image (sys j) s)))) fun i j s => ?_
  rw [unit_image, presPaux_image, viscPaux_image]
  ring

/-- Nor to a torque (open box: the only image is the particle itself). -/
theorem C24_no_net_torque (par : Par) {K : Kernel} {n' : ℕ} (hK : K.Valid n') (eosP : Fin N → ℝ)
    {nb : Fin N → Neibs n N} {sys : Fin N → Part n} (hg : ∀ i, Good (sys i))
    (hl : ∀ i, Complete K {0} sys i (nb i)) (k l : Fin n) :
    ∑ i, (sys i).m * ((sys i).r k * (updateHydro par K eosP nb sys i).a l -
      (sys i).r l * (updateHydro par K eosP nb sys i).a k) = 0 := by
  simp only [updateHydro_a hK hg (hl _), Finset.sum_singleton, image_zero, Finset.mul_sum,
    ← Finset.sum_sub_distrib]
  refine sum_antisymm (fun i j => (sys i).m *
    ((sys i).r k * ((sys j).m * unit 0 (fun k => (sys j).r k - (sys i).r k) l *
      (presPaux K 0 (sys i) (sys j) - viscPaux par K 0 (sys i) (sys j))) -
    (sys i).r l * ((sys j).m * unit 0 (fun k => (sys j).r k - (sys i).r k) k *
      (presPaux K 0 (sys i) (sys j) - viscPaux par K 0 (sys i) (sys j))))) fun i j => ?_
  rw [unit_swap 0 (sys i) (sys j), unit_swap 0 (sys i) (sys j), presPaux_comm K 0 (sys i), viscPaux_comm par K 0 (sys i)]
  generalize presPaux K 0 (sys i) (sys j) - viscPaux par K 0 (sys i) (sys j) = p
  have hc : (sys i).r k * unit 0 (fun k => (sys j).r k - (sys i).r k) l -
      (sys i).r l * unit 0 (fun k => (sys j).r k - (sys i).r k) k =
      (sys j).r k * unit 0 (fun k => (sys j).r k - (sys i).r k) l -
      (sys j).r l * unit 0 (fun k => (sys j).r k - (sys i).r k) k := by
    unfold unit
    split_ifs <;> ring
  linear_combination ((sys i).m * (sys j).m * p) * hc

/-- The rate of change of kinetic plus thermal energy is zero: what the pressure and viscous forces take
from the motion is what the heating rates give to the gas, and conduction only moves heat about.
`eosP` is the pressure the equation of state returns in the heating rate; it is that of the force, which
`ComputeThermalProperties` set with the same call. -/
theorem C24_energy (par : Par) {K : Kernel} {n' : ℕ} (hK : K.Valid n') {eosP : Fin N → ℝ}
    {nb : Fin N → Neibs n N} {sys : Fin N → Part n} {S : Finset (Vec n ℝ)} (hS : Symm S) (hg : ∀ i, Good (sys i))
    (hP : ∀ i, eosP i = (sys i).pressure) (hl : ∀ i, Complete K S sys i (nb i)) :
    ∑ i, (sys i).m * (dot (sys i).v (updateHydro par K eosP nb sys i).a + (updateHydro par K eosP nb sys i).dudt) = 0 := by
  rw [← energy_pairs par K 0 sys S hS]
  refine Finset.sum_congr rfl fun i _ => ?_
  have ea : (updateHydro par K eosP nb sys i).a = fun k => ∑ j, ∑ s ∈ S, (sys j).m *
      unit 0 (fun k => (image (sys j) s).r k - (sys i).r k) k *
      (presPaux K 0 (sys i) (image (sys j) s) - viscPaux par K 0 (sys i) (image (sys j) s)) :=
    funext fun k => updateHydro_a hK hg (hl i) k
  rw [updateHydro_dudt hK hg (hl i), ea, dot_sum, hP]
  simp only [dot_smul, ← Finset.sum_add_distrib, Finset.mul_sum]

/-! ### with self-gravity -/

namespace Sph

/-- acceleration of `UpdateAllSphForces`: hydro and gravity as sums over all particles -/
theorem updateGrav_a {par : Par} {K : Kernel} {n' : ℕ} (hK : K.Valid n') (hG : K.GravityOK) {sm : ℝ} (hsm : 0 ≤ sm)
    {eosP : Fin N → ℝ} {sphdata : ℕ → Part n} {hyd smo dir : Fin N → Neibs n N} {sys : Fin N → Part n} {i : Fin N}
    (hg : ∀ i, Good (sys i)) (hs : Split K sys i (hyd i) (smo i) (dir i)) (k : Fin n) :
    (updateGrav par K sm eosP sphdata hyd smo dir sys i).a k = ∑ j, (sys j).m *
      unit sm (fun k => (sys j).r k - (sys i).r k) k *
      (presPaux K sm (sys i) (sys j) - viscPaux par K sm (sys i) (sys j) + gravPaux K sm (sys i) (sys j)) := by
  rw [(updateGrav_lists par K sm eosP sphdata hyd smo dir sys i).1 k, grav_sum hK hG hsm hg hs, sum_complete hs.complete]
  · simp only [Finset.sum_singleton, image_zero, ← Finset.sum_add_distrib]
    exact Finset.sum_congr rfl fun j _ => by ring
  · intro j s hi
    rw [acc_zero hK par hsm (hg i).h (q := image (sys j) s) (hg j).h hi, mul_zero]
  · rw [unit_self]; ring

theorem updateGrav_dudt {par : Par} {K : Kernel} {n' : ℕ} (hK : K.Valid n') {sm : ℝ} (hsm : 0 ≤ sm)
    {eosP : Fin N → ℝ} {sphdata : ℕ → Part n} {hyd smo dir : Fin N → Neibs n N} {sys : Fin N → Part n} {i : Fin N}
    (hg : ∀ i, Good (sys i)) (hs : Split K sys i (hyd i) (smo i) (dir i)) :
    (updateGrav par K sm eosP sphdata hyd smo dir sys i).dudt = ∑ j,
      (condHeat par K sm (sys i) (sys j) - viscHeat par K sm (sys i) (sys j) +
       eosP i * (sys i).invomega / ((sys i).rho * (sys i).rho) * ((sys j).m * dvdr sm (sys i) (sys j) *
         wkern K sm (sys i) (sys j))) := by
  rw [(updateGrav_lists par K sm eosP sphdata hyd smo dir sys i).2.2, sum_complete hs.complete, sum_complete hs.complete]
  · simp only [Finset.sum_singleton, image_zero, Finset.mul_sum, ← Finset.sum_add_distrib]
    refine Finset.sum_congr rfl fun j _ => ?_
    have := (hg i).rho.ne'
    field_simp
  · intro j s hi
    rw [wkern_zero hK hsm (hg i).h hi, mul_zero]
  · rw [dvdr_self]; ring
  · intro j s hi
    exact heat_zero hK par hsm (hg i).h (q := image (sys j) s) (hg j).h hi
  · exact heat_self K par sm (sys i)

/-- potential of `UpdateAllSphForces` -/
theorem updateGrav_gpot {par : Par} {K : Kernel} {n' : ℕ} (hK : K.Valid n') (hG : K.GravityOK) {sm : ℝ} (hsm : 0 ≤ sm)
    {eosP : Fin N → ℝ} {sphdata : ℕ → Part n} {hyd smo dir : Fin N → Neibs n N} {sys : Fin N → Part n} {i : Fin N}
    (hg : ∀ i, Good (sys i)) (hs : Split K sys i (hyd i) (smo i) (dir i)) :
    (updateGrav par K sm eosP sphdata hyd smo dir sys i).gpot = (sys i).m / (sys i).h * K.wpot 0 +
      ∑ j, (sys j).m * gravGaux K sm (sys i) (sys j) := by
  rw [(updateGrav_lists par K sm eosP sphdata hyd smo dir sys i).2.1, ← gpot_sum hK hG hsm hg hs]
  ring

end Sph

/-- The same for `UpdateAllSphForces`, hydro and gravity together, when no distant cell is accepted
(open box). -/
theorem C24_gravity_no_net_force (par : Par) {K : Kernel} {n' : ℕ} (hK : K.Valid n') (hG : K.GravityOK) {sm : ℝ}
    (hsm : 0 ≤ sm) (eosP : Fin N → ℝ) (sphdata : ℕ → Part n) {hyd smo dir : Fin N → Neibs n N} {sys : Fin N → Part n}
    (hg : ∀ i, Good (sys i)) (hs : ∀ i, Split K sys i (hyd i) (smo i) (dir i)) (k : Fin n) :
    ∑ i, (sys i).m * (updateGrav par K sm eosP sphdata hyd smo dir sys i).a k = 0 := by
  simp only [updateGrav_a hK hG hsm hg (hs _), Finset.mul_sum]
  refine sum_antisymm _ fun i j => ?_
  rw [unit_swap sm (sys i) (sys j), presPaux_comm K sm (sys i), viscPaux_comm par K sm (sys i),
    gravPaux_comm K sm (sys i)]
  ring

theorem C24_gravity_no_net_torque (par : Par) {K : Kernel} {n' : ℕ} (hK : K.Valid n') (hG : K.GravityOK) {sm : ℝ}
    (hsm : 0 ≤ sm) (eosP : Fin N → ℝ) (sphdata : ℕ → Part n) {hyd smo dir : Fin N → Neibs n N} {sys : Fin N → Part n}
    (hg : ∀ i, Good (sys i)) (hs : ∀ i, Split K sys i (hyd i) (smo i) (dir i)) (k l : Fin n) :
    ∑ i, (sys i).m * ((sys i).r k * (updateGrav par K sm eosP sphdata hyd smo dir sys i).a l -
      (sys i).r l * (updateGrav par K sm eosP sphdata hyd smo dir sys i).a k) = 0 := by
  simp only [updateGrav_a hK hG hsm hg (hs _), Finset.mul_sum, ← Finset.sum_sub_distrib]
  refine sum_antisymm _ fun i j => ?_
  rw [unit_swap sm (sys i) (sys j), unit_swap sm (sys i) (sys j), presPaux_comm K sm (sys i),
    viscPaux_comm par K sm (sys i), gravPaux_comm K sm (sys i)]
  generalize presPaux K sm (sys i) (sys j) - viscPaux par K sm (sys i) (sys j) + gravPaux K sm (sys i) (sys j) = p
  have hc : (sys i).r k * unit sm (fun k => (sys j).r k - (sys i).r k) l -
      (sys i).r l * unit sm (fun k => (sys j).r k - (sys i).r k) k =
      (sys j).r k * unit sm (fun k => (sys j).r k - (sys i).r k) l -
      (sys j).r l * unit sm (fun k => (sys j).r k - (sys i).r k) k := by
    unfold unit
    split_ifs <;> ring
  linear_combination ((sys i).m * (sys j).m * p) * hc

/-- Self-gravitating gas conserves its total energy exactly. Along any motion whose velocities change at the
rate of the code's accelerations, whose internal energies change at the rate `dudt` and whose smoothing lengths
satisfy `h = h_fac (m/ρ)^(1/ndim)` with the correction terms of `ComputeH`, the time derivative of kinetic plus
thermal plus gravitational energy is zero. This is what the terms with `invomega` and `zeta` are for. The
gravitational energy counts the potential of a particle in its own field once; see `C24_diagnosed_energy_fails`.
`small_number` is taken as 0. -/
theorem C24_total_energy (par : Par) {K : Kernel} {n' : ℕ} (hn : 0 < n) (hK : K.Valid n') (hO : K.OmegaOK n)
    (hG : K.GravityOK) (hZ : K.ZetaOK) (h0 : K.wzeta 0 = K.wpot 0) {hfac : ℝ} {sys : ℝ → Fin N → Part n}
    {h' : Fin N → ℝ} {t : ℝ} {eosP : ℝ → Fin N → ℝ} {sphdata : ℕ → Part n} {hyd smo dir : ℝ → Fin N → Neibs n N}
    (f : Flow K hfac sys (fun i => (updateGrav par K 0 (eosP t) sphdata (hyd t) (smo t) (dir t) (sys t) i).a) h' t)
    (hu : ∀ i, HasDerivAt (fun τ => (sys τ i).u)
      (updateGrav par K 0 (eosP t) sphdata (hyd t) (smo t) (dir t) (sys t) i).dudt t)
    (hP : ∀ i, eosP t i = (sys t i).pressure)
    (hs : ∀ τ i, Split K (sys τ) i (hyd τ i) (smo τ i) (dir τ i)) :
    HasDerivAt (fun τ => ∑ i, (sys τ i).m * (0.5 * dot (sys τ i).v (sys τ i).v + (sys τ i).u) -
      0.5 * ∑ i, (sys τ i).m *
        ((updateGrav par K 0 (eosP τ) sphdata (hyd τ) (smo τ) (dir τ) (sys τ) i).gpot -
          (sys τ i).m / (sys τ i).h * K.wpot 0)) 0 t := by
  -- the energy in closed form
  have e : (fun τ => ∑ i, (sys τ i).m * (0.5 * dot (sys τ i).v (sys τ i).v + (sys τ i).u) -
      0.5 * ∑ i, (sys τ i).m *
        ((updateGrav par K 0 (eosP τ) sphdata (hyd τ) (smo τ) (dir τ) (sys τ) i).gpot -
          (sys τ i).m / (sys τ i).h * K.wpot 0)) =
      fun τ => ∑ i, (sys t i).m * (0.5 * dot (sys τ i).v (sys τ i).v + (sys τ i).u) -
      0.5 * ∑ i, ∑ j, (sys t i).m * ((sys t j).m *
        (1 / (sys τ i).h * K.wpot (dist 0 (sys τ i) (sys τ j) * (1 / (sys τ i).h)))) := by
    funext τ
    congr 1
    · exact Finset.sum_congr rfl fun i _ => by rw [f.mass τ i]
    · congr 1
      simp only [updateGrav_gpot hK hG le_rfl (f.good τ) (hs τ _), add_sub_cancel_left, Finset.mul_sum, f.mass τ]
      rw [← sub_eq_zero]
      simp only [← Finset.sum_sub_distrib]
      refine sum_antisymm _ fun i j => ?_
      unfold gravGaux
      rw [dist_comm 0 (sys τ i) (sys τ j)]
      ring
  rw [e]
  have d1 := HasDerivAt.fun_sum (u := Finset.univ) fun (i : Fin N) _ =>
    (((hasDerivAt_dot (f.acc i) (f.acc i)).const_mul (0.5 : ℝ)).add (hu i)).const_mul (sys t i).m
  have d2 := HasDerivAt.fun_sum (u := Finset.univ) fun (i : Fin N) _ =>
    HasDerivAt.fun_sum (u := Finset.univ) fun (j : Fin N) _ =>
    ((f.hasDerivAt_pot hG hZ h0 i j).const_mul (sys t j).m).const_mul (sys t i).m
  refine (d1.sub (d2.const_mul (0.5 : ℝ))).congr_deriv ?_
  rw [← f.gravity_balance hn hK hO]
  have hyd0 := energy_pairs par K 0 (sys t) {0} (by intro s hs; simp at hs; subst hs; simp; rfl)
  simp only [Finset.sum_singleton, image_zero] at hyd0
  rw [← Finset.sum_sub_distrib]
  refine Eq.trans ?_ hyd0
  refine Finset.sum_congr rfl fun i _ => ?_
  have ea : (updateGrav par K 0 (eosP t) sphdata (hyd t) (smo t) (dir t) (sys t) i).a = fun k => ∑ j,
      ∑ s ∈ ({0} : Finset (Vec n ℝ)), (sys t j).m * unit 0 (fun k => (sys t j).r k - (sys t i).r k) k *
      (presPaux K 0 (sys t i) (sys t j) - viscPaux par K 0 (sys t i) (sys t j) + gravPaux K 0 (sys t i) (sys t j)) := by
    funext k
    simp only [Finset.sum_singleton]
    exact updateGrav_a hK hG le_rfl (f.good t) (hs t i) k
  have hc : ∀ x y : Vec n ℝ, dot x y = dot y x := fun x y => Finset.sum_congr rfl fun _ _ => mul_comm _ _
  rw [hc _ (sys t i).v, updateGrav_dudt hK le_rfl (f.good t) (hs t i), ea, dot_sum, hP]
  simp only [dot_smul, Finset.sum_singleton]
  rw [← two_mul, ← mul_assoc, show (0.5 : ℝ) * 2 = 1 by norm_num, one_mul, ← Finset.sum_add_distrib, Finset.mul_sum,
    ← Finset.sum_sub_distrib]
  exact Finset.sum_congr rfl fun j _ => by ring

/-- for the M4 kernel in three dimensions nothing about the kernel is left to assume -/
theorem C24_total_energy_m4 (par : Par) {hfac : ℝ} {sys : ℝ → Fin N → Part 3}
    {h' : Fin N → ℝ} {t : ℝ} {eosP : ℝ → Fin N → ℝ} {sphdata : ℕ → Part 3} {hyd smo dir : ℝ → Fin N → Neibs 3 N}
    (f : Flow (m4Kernel 3) hfac sys
      (fun i => (updateGrav par (m4Kernel 3) 0 (eosP t) sphdata (hyd t) (smo t) (dir t) (sys t) i).a) h' t)
    (hu : ∀ i, HasDerivAt (fun τ => (sys τ i).u)
      (updateGrav par (m4Kernel 3) 0 (eosP t) sphdata (hyd t) (smo t) (dir t) (sys t) i).dudt t)
    (hP : ∀ i, eosP t i = (sys t i).pressure)
    (hs : ∀ τ i, Split (m4Kernel 3) (sys τ) i (hyd τ i) (smo τ i) (dir τ i)) :
    HasDerivAt (fun τ => ∑ i, (sys τ i).m * (0.5 * dot (sys τ i).v (sys τ i).v + (sys τ i).u) -
      0.5 * ∑ i, (sys τ i).m *
        ((updateGrav par (m4Kernel 3) 0 (eosP τ) sphdata (hyd τ) (smo τ) (dir τ) (sys τ) i).gpot -
          (sys τ i).m / (sys τ i).h * (m4Kernel 3).wpot 0)) 0 t :=
  C24_total_energy par (by norm_num) (C30_m4_valid 3 (by norm_num)) (C31_m4_omega 3 (by norm_num)) C31_m4_gravity
    (C31_m4_zeta 3) (by norm_num [m4Kernel, M4.wzeta, M4.wpot]) f hu hP hs

/-- The energy in the diagnostics (Common/SimAnalysis.hpp:104-163: half the mass times `gpot`) uses the `gpot`
of the force loop, which holds the particle's potential in its own field twice: once from the initial value
`(m/h) wpot(0)`, GradhSphTree.cpp:513, and once because the particle is in its own neighbour list. Its rate of
change along the same motions is not zero but what the smoothing lengths make of the surplus. -/
theorem C24_diagnosed_energy_rate (par : Par) {K : Kernel} {n' : ℕ} (hn : 0 < n) (hK : K.Valid n') (hO : K.OmegaOK n)
    (hG : K.GravityOK) (hZ : K.ZetaOK) (h0 : K.wzeta 0 = K.wpot 0) {hfac : ℝ} {sys : ℝ → Fin N → Part n}
    {h' : Fin N → ℝ} {t : ℝ} {eosP : ℝ → Fin N → ℝ} {sphdata : ℕ → Part n} {hyd smo dir : ℝ → Fin N → Neibs n N}
    (f : Flow K hfac sys (fun i => (updateGrav par K 0 (eosP t) sphdata (hyd t) (smo t) (dir t) (sys t) i).a) h' t)
    (hu : ∀ i, HasDerivAt (fun τ => (sys τ i).u)
      (updateGrav par K 0 (eosP t) sphdata (hyd t) (smo t) (dir t) (sys t) i).dudt t)
    (hP : ∀ i, eosP t i = (sys t i).pressure)
    (hs : ∀ τ i, Split K (sys τ) i (hyd τ i) (smo τ i) (dir τ i)) :
    HasDerivAt (fun τ => ∑ i, (sys τ i).m * (0.5 * dot (sys τ i).v (sys τ i).v + (sys τ i).u) -
      0.5 * ∑ i, (sys τ i).m * (updateGrav par K 0 (eosP τ) sphdata (hyd τ) (smo τ) (dir τ) (sys τ) i).gpot)
      (0.5 * ∑ i, (sys t i).m ^ 2 * K.wpot 0 * h' i / (sys t i).h ^ 2) t := by
  have h1 := C24_total_energy par hn hK hO hG hZ h0 f hu hP hs
  have h2 := HasDerivAt.fun_sum (u := Finset.univ) fun (i : Fin N) _ =>
    ((f.h i).fun_inv (f.good t i).h.ne').const_mul ((sys t i).m ^ 2 * K.wpot 0)
  refine ((h1.sub (h2.const_mul (0.5 : ℝ))).congr_of_eventuallyEq ?_).congr_deriv ?_
  · filter_upwards with τ
    simp only [Pi.sub_apply]
    rw [sub_sub, sub_right_inj, ← mul_add, ← Finset.sum_add_distrib]
    congr 1
    refine Finset.sum_congr rfl fun i _ => ?_
    rw [f.mass τ i]
    have := (f.good τ i).h.ne'
    field_simp
    ring
  · rw [zero_sub, ← mul_neg, ← Finset.sum_neg_distrib]
    congr 1
    exact Finset.sum_congr rfl fun i _ => by ring

/-! ### a concrete case: two particles moving apart -/

namespace Sph

/-- half the unit distance to either side -/
noncomputable def pairX (i : Fin 2) (k : Fin 3) : ℝ := if k = 0 then (if i = 0 then -0.5 else 0.5) else 0

/-- two gas particles scaled by `l`, before the correction terms -/
noncomputable def pairP (l : ℝ) (v : Vec 3 ℝ) (u : ℝ) (io ze : ℝ) (i : Fin 2) : Part 3 where
  r := fun k => l * pairX i k
  v := v
  m := 1
  h := l
  hfactor := (1 / l) ^ 4
  rho := 5 / 4 / Real.pi / l ^ 3
  pressure := 1
  invomega := io
  zeta := ze
  sound := 1
  u := u
  alpha := 1
  level := 0
  levelneib := 0
  a := fun _ => 0
  atree := fun _ => 0
  gpot := 0
  dudt := 0
  div_v := 0
  dalphadt := 0

theorem pairX_1 (i : Fin 2) : pairX i 1 = 0 := if_neg (by decide)
theorem pairX_2 (i : Fin 2) : pairX i 2 = 0 := if_neg (by decide)
theorem pairX_00 : pairX 0 0 = -0.5 := by simp [pairX]
theorem pairX_10 : pairX 1 0 = 0.5 := by simp [pairX]

theorem pair_dist (l : ℝ) (hl : 0 < l) (v w : Vec 3 ℝ) (a b c d e g : ℝ) (i j : Fin 2) :
    dist 0 (pairP l v a b c i) (pairP l w d e g j) = if i = j then 0 else l := by
  unfold dist drmag
  fin_cases i <;> fin_cases j
  · simp [dot, pairP]
  · simp only [dot, pairP, Fin.sum_univ_three, Fin.mk_one, Fin.zero_eta, pairX_1, pairX_2, pairX_00, pairX_10]
    rw [if_neg (by decide), show (l * 0.5 - l * -0.5) * (l * 0.5 - l * -0.5) + (l * 0 - l * 0) * (l * 0 - l * 0) +
      (l * 0 - l * 0) * (l * 0 - l * 0) + 0 = l * l by ring, Real.sqrt_mul_self hl.le]
  · simp only [dot, pairP, Fin.sum_univ_three, Fin.mk_one, Fin.zero_eta, pairX_1, pairX_2, pairX_00, pairX_10]
    rw [if_neg (by decide), show (l * -0.5 - l * 0.5) * (l * -0.5 - l * 0.5) + (l * 0 - l * 0) * (l * 0 - l * 0) +
      (l * 0 - l * 0) * (l * 0 - l * 0) + 0 = l * l by ring, Real.sqrt_mul_self hl.le]
  · simp [dot, pairP]

/-- parameters -/
noncomputable def pairPar : Par where
  avisc := .mon97
  acond := .price2008
  tdavisc := .notdav
  alpha_visc := 1
  alpha_visc_min := 0.1
  beta_visc := 2

/-- the state at time 0 -/
noncomputable def pairBase (i : Fin 2) : Part 3 := pairP 1 (pairX i) 1 5 (-(34 / 15 * Real.pi)) i

/-- all in the hydro list -/
def pairHyd (_ : Fin 2) : Neibs 3 2 := [(0, 0), (1, 0)]
def pairNone (_ : Fin 2) : Neibs 3 2 := []

noncomputable def pairForce (i : Fin 2) : Part 3 :=
  updateGrav pairPar (m4Kernel 3) 0 (fun _ => 1) (fun _ => pairBase 0) pairHyd pairNone pairNone pairBase i

/-- the motion: everything is scaled by `exp τ` -/
noncomputable def pairSys (τ : ℝ) (i : Fin 2) : Part 3 :=
  pairP (Real.exp τ) (fun k => pairX i k + τ * (pairForce i).a k) (1 + τ * (pairForce i).dudt) 5
    (-(34 / 15 * Real.pi) * Real.exp τ ^ 2) i

theorem pairSys_zero : pairSys 0 = pairBase := by
  funext i
  simp [pairSys, pairBase]

theorem pair_split (τ : ℝ) (i : Fin 2) : Split (m4Kernel 3) (pairSys τ) i (pairHyd i) (pairNone i) (pairNone i) where
  shifts := by intro x hx; simp [pairHyd, pairNone] at hx; rcases hx with rfl | rfl <;> rfl
  nodup := by simp [pairHyd, pairNone]
  all := by
    intro j
    refine ⟨(j, 0), ?_, rfl⟩
    simp only [pairHyd, pairNone, List.append_nil]
    fin_cases j <;> simp
  hydro := by intro j _; fin_cases j <;> simp [pairHyd]
  far := by intro x hx; simp [pairNone] at hx

theorem pair_conv (τ : ℝ) (i : Fin 2) :
    Converged (m4Kernel 3) ((5 / 4 / Real.pi) ^ ((1 : ℝ) / 3)) (pairSys τ) i := by
  have hl := Real.exp_pos τ
  have hpi := Real.pi_pos
  have hd : ∀ i j, dist 0 (pairSys τ i) (pairSys τ j) / (pairSys τ i).h = if i = j then 0 else 1 := by
    intro i j
    unfold pairSys
    rw [pair_dist _ hl]
    by_cases h : i = j
    · rw [if_pos h, if_pos h, zero_div]
    · rw [if_neg h, if_neg h]
      exact div_self hl.ne'
  have sum2 : ∀ g : ℝ → ℝ, ∑ j, (pairSys τ j).m * g (dist 0 (pairSys τ i) (pairSys τ j) / (pairSys τ i).h) = g 0 + g 1 := by
    intro g
    have hm : ∀ j, (pairSys τ j).m = 1 := fun _ => rfl
    simp only [hd, hm, Fin.sum_univ_two, one_mul]
    fin_cases i
    · simp
    · simp [add_comm]
  have hm : (pairSys τ i).m = 1 := rfl
  have hh : (pairSys τ i).h = Real.exp τ := rfl
  have hr : (pairSys τ i).rho = 5 / 4 / Real.pi / Real.exp τ ^ 3 := rfl
  have homega : ∑ j, (pairSys τ j).m * ((1 / (pairSys τ i).h) ^ (3 + 1) *
      (m4Kernel 3).womega (dist 0 (pairSys τ i) (pairSys τ j) / (pairSys τ i).h)) =
      (1 / Real.exp τ) ^ 4 * (-3 / Real.pi) := by
    rw [sum2 fun s => (1 / (pairSys τ i).h) ^ (3 + 1) * (m4Kernel 3).womega s, hh]
    norm_num [m4Kernel, M4.womega, M4.kernnorm]
    field_simp
  have hrd : hRhoDeriv (pairSys τ i) = -(4 / 15 * Real.pi * Real.exp τ ^ 4) := by
    unfold hRhoDeriv
    rw [hh, hr]
    push_cast
    field_simp
    norm_num
  have hom : 1 - hRhoDeriv (pairSys τ i) * ∑ j, (pairSys τ j).m * ((1 / (pairSys τ i).h) ^ (3 + 1) *
      (m4Kernel 3).womega (dist 0 (pairSys τ i) (pairSys τ j) / (pairSys τ i).h)) = 1 / 5 := by
    rw [homega, hrd]
    field_simp
    norm_num
  refine ⟨?_, ?_, rfl, ?_, ?_, ?_⟩
  · unfold density
    rw [sum2 fun s => (1 / (pairSys τ i).h) ^ 3 * (m4Kernel 3).w0 s, hh, hr]
    norm_num [m4Kernel, M4.w0, M4.kernnorm]
    field_simp
    norm_num
  · have e : ((5 / 4 / Real.pi : ℝ) ^ ((1 : ℝ) / 3)) ^ 3 = 5 / 4 / Real.pi := by
      rw [← Real.rpow_natCast, ← Real.rpow_mul (by positivity)]
      norm_num
    rw [e, hh, hr, hm]
    field_simp
  · rw [hom]; norm_num
  · rw [hom]
    norm_num [pairSys, pairP]
  · have e : ∀ j, (pairSys τ j).m * (m4Kernel 3).wzeta (dist 0 (pairSys τ i) (pairSys τ j) / (pairSys τ i).h) *
        (1 / (pairSys τ i).h) ^ 2 = (pairSys τ j).m * ((m4Kernel 3).wzeta (dist 0 (pairSys τ i) (pairSys τ j) /
        (pairSys τ i).h) * (1 / (pairSys τ i).h) ^ 2) := fun j => by ring
    simp only [e]
    rw [sum2 fun s => (m4Kernel 3).wzeta s * (1 / (pairSys τ i).h) ^ 2, hrd, hh]
    have : (pairSys τ i).invomega = 5 := rfl
    rw [this]
    change -(34 / 15 * Real.pi) * Real.exp τ ^ 2 = _
    norm_num [m4Kernel, M4.wzeta]
    field_simp
    norm_num

theorem pair_good (τ : ℝ) (i : Fin 2) : Good (pairSys τ i) where
  m := one_pos
  h := Real.exp_pos τ
  rho := by
    have := Real.pi_pos
    have := Real.exp_pos τ
    change 0 < 5 / 4 / Real.pi / Real.exp τ ^ 3
    positivity
  hfactor := by
    have := Real.exp_pos τ
    change 0 < (1 / Real.exp τ) ^ 4
    positivity
  sound := zero_le_one
  alpha := zero_le_one

theorem pair_flow : Flow (m4Kernel 3) ((5 / 4 / Real.pi) ^ ((1 : ℝ) / 3)) pairSys
    (fun i => (updateGrav pairPar (m4Kernel 3) 0 (fun _ => 1) (fun _ => pairBase 0) pairHyd pairNone pairNone
      (pairSys 0) i).a) (fun _ => 1) 0 where
  mass := fun _ _ => rfl
  good := pair_good
  vel := by
    intro i k
    have h := (Real.hasDerivAt_exp 0).mul_const (pairX i k)
    refine h.congr_deriv ?_
    simp [pairSys, pairP]
  acc := by
    intro i k
    rw [pairSys_zero]
    have h := ((hasDerivAt_id (0 : ℝ)).mul_const ((pairForce i).a k)).const_add (pairX i k)
    refine h.congr_deriv ?_
    rw [one_mul]
    rfl
  h := by
    intro i
    have := Real.hasDerivAt_exp 0
    rw [Real.exp_zero] at this
    exact this
  conv := pair_conv
  apart := by
    intro i j hij h
    have h0 := congrFun h 0
    simp only [pairSys, pairP, Real.exp_zero, one_mul] at h0
    fin_cases i <;> fin_cases j
    · exact hij rfl
    · simp only [Fin.mk_one, Fin.zero_eta, pairX_00, pairX_10] at h0
      norm_num at h0
    · simp only [Fin.mk_one, Fin.zero_eta, pairX_00, pairX_10] at h0
      norm_num at h0
    · exact hij rfl

theorem pair_heat (i : Fin 2) : HasDerivAt (fun τ => (pairSys τ i).u)
    (updateGrav pairPar (m4Kernel 3) 0 (fun _ => 1) (fun _ => pairBase 0) pairHyd pairNone pairNone (pairSys 0) i).dudt 0 := by
  rw [pairSys_zero]
  have h := ((hasDerivAt_id (0 : ℝ)).mul_const (pairForce i).dudt).const_add 1
  refine h.congr_deriv ?_
  rw [one_mul]
  rfl

end Sph

/-- the hypotheses are met: two particles moving apart, with pressure, viscosity and conductivity on -/
example : HasDerivAt (fun τ => ∑ i, (pairSys τ i).m * (0.5 * dot (pairSys τ i).v (pairSys τ i).v + (pairSys τ i).u) -
      0.5 * ∑ i, (pairSys τ i).m *
        ((updateGrav pairPar (m4Kernel 3) 0 (fun _ => 1) (fun _ => pairBase 0) pairHyd pairNone pairNone (pairSys τ) i).gpot -
          (pairSys τ i).m / (pairSys τ i).h * (m4Kernel 3).wpot 0)) 0 0 :=
  C24_total_energy_m4 pairPar (eosP := fun _ _ => 1) (hyd := fun _ => pairHyd) (smo := fun _ => pairNone)
    (dir := fun _ => pairNone) pair_flow pair_heat (fun _ => rfl) pair_split

/-- Not so the energy formed with `gpot` as it is: for the same two particles it changes at the rate 1.4. -/
theorem C24_diagnosed_energy_fails :
    HasDerivAt (fun τ => ∑ i, (pairSys τ i).m * (0.5 * dot (pairSys τ i).v (pairSys τ i).v + (pairSys τ i).u) -
      0.5 * ∑ i, (pairSys τ i).m *
        (updateGrav pairPar (m4Kernel 3) 0 (fun _ => 1) (fun _ => pairBase 0) pairHyd pairNone pairNone (pairSys τ) i).gpot)
      1.4 0 := by
  have h := C24_diagnosed_energy_rate pairPar (by norm_num) (C30_m4_valid 3 (by norm_num)) (C31_m4_omega 3 (by norm_num))
    C31_m4_gravity (C31_m4_zeta 3) (by norm_num [m4Kernel, M4.wzeta, M4.wpot]) (eosP := fun _ _ => 1)
    (hyd := fun _ => pairHyd) (smo := fun _ => pairNone) (dir := fun _ => pairNone) pair_flow pair_heat (fun _ => rfl)
    pair_split
  refine h.congr_deriv ?_
  norm_num [pairSys, pairP, m4Kernel, M4.wpot]

/-- the lists of the hydro-only loop for the same particles -/
theorem Sph.pair_complete (i : Fin 2) : Complete (m4Kernel 3) {0} pairBase i (pairHyd i) := by
  have := (pair_split 0 i).complete
  rwa [pairSys_zero] at this

example (k : Fin 3) : ∑ i, (pairBase i).m * (updateHydro pairPar (m4Kernel 3) (fun _ => 1) pairHyd pairBase i).a k = 0 :=
  C24_no_net_force pairPar (C30_m4_valid 3 (by norm_num)) _ (by intro s hs; simp at hs; subst hs; simp; rfl)
    (fun i => by have := pair_good 0 i; rwa [pairSys_zero] at this) pair_complete k

example : ∑ i, (pairBase i).m * (dot (pairBase i).v (updateHydro pairPar (m4Kernel 3) (fun _ => 1) pairHyd pairBase i).a +
    (updateHydro pairPar (m4Kernel 3) (fun _ => 1) pairHyd pairBase i).dudt) = 0 :=
  C24_energy pairPar (C30_m4_valid 3 (by norm_num)) (by intro s hs; simp at hs; subst hs; simp; rfl)
    (fun i => by have := pair_good 0 i; rwa [pairSys_zero] at this) (fun _ => rfl) pair_complete

end Gandalf
