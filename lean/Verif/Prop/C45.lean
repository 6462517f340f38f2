import Verif.Proof.StarForces
import Verif.Prop.C30
import Verif.Prop.C31

/-!
# C45 – direct N-body forces: third law, jerk, energy
-/

set_option autoImplicit false
set_option linter.unusedSectionVars false

namespace Gandalf

open Stars

variable {n N : ℕ}

/-- every star is active -/
def Stars.AllActive (s : Fin N → Star n) : Prop := ∀ i, (s i).active = true

/-- the box is a proper one (the half-lengths are not negative) -/
def Stars.Proper (d : Domain n ℝ) : Prop := ∀ k, Per d k → 0 ≤ d.half k

/-- a motion of stars of fixed mass, smoothing length and activity, whose velocity at `t` is the time
derivative of the position -/
structure Stars.Motion (s : ℝ → Fin N → Star n) (t : ℝ) : Prop where
  m : ∀ τ i, (s τ i).m = (s t i).m
  h : ∀ τ i, (s τ i).h = (s t i).h
  active : ∀ τ i, (s τ i).active = true
  vel : ∀ i k, HasDerivAt (fun τ => (s τ i).r k) ((s t i).v k) t

theorem Stars.sumForces_a {P : Star n → Star n → ℝ} {A J : Star n → Star n → Fin n → ℝ} {s : Fin N → Star n}
    (h : AllActive s) (i : Fin N) (k : Fin n) :
    (sumForces P A J (clear s) i).a k = ∑ j, if i = j then 0 else A (clear s i) (clear s j) k := by
  have e : (clear s i).active = true := by simp [clear, h i]
  simp only [sumForces, e, if_true]
  simp [clear, h i]

theorem Stars.sumForces_adot {P : Star n → Star n → ℝ} {A J : Star n → Star n → Fin n → ℝ} {s : Fin N → Star n}
    (h : AllActive s) (i : Fin N) (k : Fin n) :
    (sumForces P A J (clear s) i).adot k = ∑ j, if i = j then 0 else J (clear s i) (clear s j) k := by
  have e : (clear s i).active = true := by simp [clear, h i]
  simp only [sumForces, e, if_true]
  simp [clear, h i]

theorem Stars.sumForces_gpot {P : Star n → Star n → ℝ} {A J : Star n → Star n → Fin n → ℝ} {s : Fin N → Star n}
    (h : AllActive s) (i : Fin N) :
    (sumForces P A J (clear s) i).gpot = ∑ j, if i = j then 0 else P (clear s i) (clear s j) := by
  have e : (clear s i).active = true := by simp [clear, h i]
  simp only [sumForces, e, if_true]
  simp [clear, h i]

theorem Stars.clear_keep (s : Fin N → Star n) (i : Fin N) :
    (clear s i).r = (s i).r ∧ (clear s i).v = (s i).v ∧ (clear s i).m = (s i).m ∧ (clear s i).h = (s i).h := by
  simp only [clear]; split_ifs <;> simp

theorem Stars.sumForces_keep {P : Star n → Star n → ℝ} {A J : Star n → Star n → Fin n → ℝ} (s : Fin N → Star n)
    (i : Fin N) : (sumForces P A J s i).r = (s i).r ∧ (sumForces P A J s i).v = (s i).v ∧
      (sumForces P A J s i).m = (s i).m := by
  simp only [sumForces]; split_ifs <;> simp

/-- the direct accelerations -/
theorem Stars.direct_a {d : Domain n ℝ} {s : Fin N → Star n} (h : AllActive s) (i : Fin N) (k : Fin n) :
    (directForces d (clear s) i).a k = ∑ j, if i = j then 0 else
      (s j).m * (newton (√(dot (sep d (s i).r (s j).r) (sep d (s i).r (s j).r))) * sep d (s i).r (s j).r k) := by
  rw [directForces, sumForces_a h]
  refine Finset.sum_congr rfl fun j _ => ?_
  rw [directAcc_eq, (clear_keep s i).1, (clear_keep s j).1, (clear_keep s j).2.2.1]

theorem Stars.smooth_a {K : Kernel} {sm : ℝ} {d : Domain n ℝ} {s : Fin N → Star n} (h : AllActive s) (i : Fin N)
    (k : Fin n) :
    (smoothForces K sm d (clear s) i).a k = ∑ j, if i = j then 0 else
      (s j).m * (soft K (invhmean (s i).h (s j).h)
        (√(dot (sep d (s i).r (s j).r) (sep d (s i).r (s j).r)) + sm) * sep d (s i).r (s j).r k) := by
  rw [smoothForces, sumForces_a h]
  refine Finset.sum_congr rfl fun j _ => ?_
  rw [smoothAcc_eq, (clear_keep s i).1, (clear_keep s j).1, (clear_keep s j).2.2.1, (clear_keep s i).2.2.2,
    (clear_keep s j).2.2.2]

/-- **C45 (third law, direct forces).** Any number of stars, open or periodic box of any dimension: the
total force is zero. -/
theorem C45_direct_no_net_force (d : Domain n ℝ) (hd : Proper d) (s : Fin N → Star n) (hs : AllActive s) (k : Fin n) :
    ∑ i, (s i).m * (directForces d (clear s) i).a k = 0 := by
  simp only [direct_a hs]
  exact sum_force hd (fun i => (s i).m) (fun i => (s i).r) (fun _ _ => newton) (fun _ _ _ => rfl) k

/-- **C45 (third law, smoothed forces)**, for every kernel, every set of smoothing lengths and either
form of the separation (`sm`). -/
theorem C45_smoothed_no_net_force (K : Kernel) (sm : ℝ) (d : Domain n ℝ) (hd : Proper d) (s : Fin N → Star n)
    (hs : AllActive s) (k : Fin n) : ∑ i, (s i).m * (smoothForces K sm d (clear s) i).a k = 0 := by
  simp only [smooth_a hs]
  exact sum_force hd (fun i => (s i).m) (fun i => (s i).r)
    (fun i j ρ => soft K (invhmean (s i).h (s j).h) (ρ + sm)) (fun i j ρ => by rw [invhmean_comm]) k

/-- **C45 (no torque, direct forces).** In an open box no component of the total torque survives. -/
theorem C45_direct_no_net_torque (d : Domain n ℝ) (hd : ∀ k, ¬Per d k) (s : Fin N → Star n) (hs : AllActive s)
    (k l : Fin n) : ∑ i, (s i).m * ((s i).r k * (directForces d (clear s) i).a l -
      (s i).r l * (directForces d (clear s) i).a k) = 0 := by
  simp only [direct_a hs]
  exact sum_torque hd (fun i => (s i).m) (fun i => (s i).r) (fun _ _ => newton) (fun _ _ _ => rfl) k l

/-- **C45 (no torque, smoothed forces).** -/
theorem C45_smoothed_no_net_torque (K : Kernel) (sm : ℝ) (d : Domain n ℝ) (hd : ∀ k, ¬Per d k) (s : Fin N → Star n)
    (hs : AllActive s) (k l : Fin n) : ∑ i, (s i).m * ((s i).r k * (smoothForces K sm d (clear s) i).a l -
      (s i).r l * (smoothForces K sm d (clear s) i).a k) = 0 := by
  simp only [smooth_a hs]
  exact sum_torque hd (fun i => (s i).m) (fun i => (s i).r)
    (fun i j ρ => soft K (invhmean (s i).h (s j).h) (ρ + sm)) (fun i j ρ => by rw [invhmean_comm]) k l

/-- **C45 (jerk, direct forces).** Along every motion the jerk the code computes is the time derivative of
the acceleration the code computes (no two stars at the same place, none exactly half a box away). -/
theorem C45_direct_jerk (d : Domain n ℝ) (s : ℝ → Fin N → Star n) (t : ℝ) (hs : Motion s t)
    (hap : ∀ i j, i ≠ j → Apart d (s t i).r (s t j).r) (i : Fin N) (k : Fin n) :
    HasDerivAt (fun τ => (directForces d (clear (s τ)) i).a k) ((directForces d (clear (s t)) i).adot k) t := by
  have e : (fun τ => (directForces d (clear (s τ)) i).a k) = fun τ => ∑ j, if i = j then 0 else
      (s t j).m * (newton (√(dot (sep d (s τ i).r (s τ j).r) (sep d (s τ i).r (s τ j).r))) *
        sep d (s τ i).r (s τ j).r k) := by
    funext τ
    rw [direct_a (hs.active τ)]
    exact Finset.sum_congr rfl fun j _ => by rw [hs.m τ j]
  rw [e, directForces, sumForces_adot (hs.active t)]
  refine HasDerivAt.fun_sum fun j _ => ?_
  by_cases h : i = j
  · simp only [if_pos h]; exact hasDerivAt_const _ _
  · simp only [if_neg h]
    have hsep := fun k => hasDerivAt_sep (hap i j h) (hs.vel i) (hs.vel j) k
    have hpos : 0 < √(dot (sep d (s t i).r (s t j).r) (sep d (s t i).r (s t j).r)) :=
      Real.sqrt_pos.mpr (dot_self_pos' (hap i j h).1)
    have hc := (hasDerivAt_central hsep (hap i j h).1 (hasDerivAt_newton hpos) k).const_mul (s t j).m
    refine hc.congr_deriv ?_
    obtain ⟨c1, c2, c3, c4⟩ := clear_keep (s t) i
    obtain ⟨d1, d2, d3, d4⟩ := clear_keep (s t) j
    simp only [directJerk, newton, c1, c2, d1, d2, d3]
    have := hpos.ne'
    field_simp
    ring

/-- **C45 (jerk, smoothed forces).** The same for the smoothed forces of the Hermite integrator in three
dimensions, for every continuous kernel whose softened gravity is that of its own mass. -/
theorem C45_smoothed_jerk (K : Kernel) (hK : Continuous K.w0) (hG : K.GravityOK) (d : Domain 3 ℝ)
    (s : ℝ → Fin N → Star 3) (t : ℝ) (hs : Motion s t) (hh : ∀ i, 0 < (s t i).h)
    (hap : ∀ i j, i ≠ j → Apart d (s t i).r (s t j).r) (i : Fin N) (k : Fin 3) :
    HasDerivAt (fun τ => (smoothForces K 0 d (clear (s τ)) i).a k)
      ((smoothForces K 0 d (clear (s t)) i).adot k) t := by
  have e : (fun τ => (smoothForces K 0 d (clear (s τ)) i).a k) = fun τ => ∑ j, if i = j then 0 else
      (s t j).m * (soft K (invhmean (s t i).h (s t j).h)
        (√(dot (sep d (s τ i).r (s τ j).r) (sep d (s τ i).r (s τ j).r))) * sep d (s τ i).r (s τ j).r k) := by
    funext τ
    rw [smooth_a (hs.active τ)]
    exact Finset.sum_congr rfl fun j _ => by rw [hs.m τ j, hs.h τ i, hs.h τ j, add_zero]
  rw [e, smoothForces, sumForces_adot (hs.active t)]
  refine HasDerivAt.fun_sum fun j _ => ?_
  by_cases h : i = j
  · simp only [if_pos h]; exact hasDerivAt_const _ _
  · simp only [if_neg h]
    have hsep := fun k => hasDerivAt_sep (hap i j h) (hs.vel i) (hs.vel j) k
    have hpos : 0 < √(dot (sep d (s t i).r (s t j).r) (sep d (s t i).r (s t j).r)) :=
      Real.sqrt_pos.mpr (dot_self_pos' (hap i j h).1)
    have hq : 0 < invhmean (s t i).h (s t j).h := by
      have := hh i; have := hh j
      simp only [invhmean]; positivity
    have hc := (hasDerivAt_central hsep (hap i j h).1 (hasDerivAt_soft hK hG hq hpos) k).const_mul (s t j).m
    refine hc.congr_deriv ?_
    obtain ⟨c1, c2, c3, c4⟩ := clear_keep (s t) i
    obtain ⟨d1, d2, d3, d4⟩ := clear_keep (s t) j
    simp only [smoothJerk, paux, soft, drmag, c1, c2, d1, d2, d3, c4, d4, add_zero]
    have := hpos.ne'
    field_simp
    ring

/-- energy of the stars written out -/
theorem Stars.energy_forces {P : Star n → Star n → ℝ} {A J : Star n → Star n → Fin n → ℝ} {s : Fin N → Star n}
    (h : AllActive s) :
    energy (sumForces P A J (clear s)) = ∑ i, 0.5 * (s i).m * dot (s i).v (s i).v + 0.5 * (0 - ∑ i, (s i).m * ∑ j,
      if i = j then 0 else P (clear s i) (clear s j)) := by
  have hm : ∀ i, (sumForces P A J (clear s) i).m = (s i).m := fun i =>
    (sumForces_keep (clear s) i).2.2.trans (clear_keep s i).2.2.1
  have hv : ∀ i, (sumForces P A J (clear s) i).v = (s i).v := fun i =>
    (sumForces_keep (clear s) i).2.1.trans (clear_keep s i).2.1
  simp only [energy, hm, hv, sumForces_gpot h]

/-- **C45 (energy, direct forces).** Along the motion generated by the code's accelerations the energy
the code reports does not change. -/
theorem C45_direct_energy (d : Domain n ℝ) (hd : Proper d) (s : ℝ → Fin N → Star n) (t : ℝ) (hs : Motion s t)
    (hap : ∀ i j, i ≠ j → Apart d (s t i).r (s t j).r)
    (hacc : ∀ i k, HasDerivAt (fun τ => (s τ i).v k) ((directForces d (clear (s t)) i).a k) t) :
    HasDerivAt (fun τ => energy (directForces d (clear (s τ)))) 0 t := by
  have e : (fun τ => energy (directForces d (clear (s τ)))) = fun τ =>
      ∑ i, 0.5 * (s t i).m * dot (s τ i).v (s τ i).v + 0.5 * (0 - ∑ i, (s t i).m * ∑ j,
        if i = j then 0 else (s t j).m * (fun ρ : ℝ => 1 / ρ)
          (√(dot (sep d (s τ i).r (s τ j).r) (sep d (s τ i).r (s τ j).r)))) := by
    funext τ
    rw [directForces, energy_forces (hs.active τ)]
    simp only [directPot, (clear_keep (s τ) _).1, (clear_keep (s τ) _).2.2.1, hs.m τ]
  rw [e]
  refine pair_energy hd (fun i => (s t i).m) (fun τ i => (s τ i).r) (fun τ i => (s τ i).v)
    (fun _ _ => newton) (fun _ _ ρ => 1 / ρ) (fun _ _ _ => rfl) t ?_ hap hs.vel ?_
  · intro i j hij ρ hρ
    have hpos : 0 < ρ := hρ ▸ Real.sqrt_pos.mpr (dot_self_pos' (hap i j hij).1)
    have := hasDerivAt_inv hpos.ne'
    simp only [one_div]
    refine this.congr_deriv ?_
    have := hpos.ne'
    simp only [newton]
    field_simp
  · intro i k
    exact (hacc i k).congr_deriv (direct_a (hs.active t) i k)

/-- **C45 (energy, smoothed forces)**, for every kernel whose softened potential is that of its softened
force, in any number of dimensions. -/
theorem C45_smoothed_energy (K : Kernel) (hG : K.GravityOK) (d : Domain n ℝ) (hd : Proper d)
    (s : ℝ → Fin N → Star n) (t : ℝ) (hs : Motion s t) (hh : ∀ i, 0 < (s t i).h)
    (hap : ∀ i j, i ≠ j → Apart d (s t i).r (s t j).r)
    (hacc : ∀ i k, HasDerivAt (fun τ => (s τ i).v k) ((smoothForces K 0 d (clear (s t)) i).a k) t) :
    HasDerivAt (fun τ => energy (smoothForces K 0 d (clear (s τ)))) 0 t := by
  have e : (fun τ => energy (smoothForces K 0 d (clear (s τ)))) = fun τ =>
      ∑ i, 0.5 * (s t i).m * dot (s τ i).v (s τ i).v + 0.5 * (0 - ∑ i, (s t i).m * ∑ j,
        if i = j then 0 else (s t j).m * (fun ρ : ℝ => invhmean (s t i).h (s t j).h *
            K.wpot (ρ * invhmean (s t i).h (s t j).h))
          (√(dot (sep d (s τ i).r (s τ j).r) (sep d (s τ i).r (s τ j).r)))) := by
    funext τ
    rw [smoothForces, energy_forces (hs.active τ)]
    simp only [smoothPot, drmag, (clear_keep (s τ) _).1, (clear_keep (s τ) _).2.2.1, (clear_keep (s τ) _).2.2.2,
      hs.m τ, hs.h τ, add_zero, mul_assoc]
  rw [e]
  refine pair_energy hd (fun i => (s t i).m) (fun τ i => (s τ i).r) (fun τ i => (s τ i).v)
    (fun i j => soft K (invhmean (s t i).h (s t j).h))
    (fun i j ρ => invhmean (s t i).h (s t j).h * K.wpot (ρ * invhmean (s t i).h (s t j).h))
    (fun i j ρ => by rw [invhmean_comm]) t ?_ hap hs.vel ?_
  · intro i j hij ρ hρ
    have hpos : 0 < ρ := hρ ▸ Real.sqrt_pos.mpr (dot_self_pos' (hap i j hij).1)
    have hq : 0 < invhmean (s t i).h (s t j).h := by
      have := hh i; have := hh j
      simp only [invhmean]; positivity
    have h2 : HasDerivAt (fun ρ : ℝ => ρ * invhmean (s t i).h (s t j).h) (invhmean (s t i).h (s t j).h) ρ := by
      simpa using (hasDerivAt_id ρ).mul_const (invhmean (s t i).h (s t j).h)
    have := (HasDerivAt.comp ρ (hG.potential (ρ * invhmean (s t i).h (s t j).h) (mul_pos hpos hq)) h2).const_mul (invhmean (s t i).h (s t j).h)
    refine this.congr_deriv ?_
    have := hpos.ne'
    simp only [soft]
    field_simp
  · intro i k
    refine (hacc i k).congr_deriv ?_
    rw [smooth_a (hs.active t) i k]
    simp only [add_zero]

/-! ### The hypotheses can be met -/

/-- two stars in three dimensions, the second moving away along the first axis -/
noncomputable def Stars.pairMotion (n : ℕ) (v1 : ℝ) (τ : ℝ) (i : Fin 2) : Star n where
  r := fun k => if i = 1 ∧ k.val = 0 then 1 + v1 * τ else 0
  v := fun k => if i = 1 ∧ k.val = 0 then v1 else 0
  a := fun _ => 0
  adot := fun _ => 0
  m := 1
  h := 1
  gpot := 0
  active := true

/-- a box, open or periodic, of half-length 5 -/
def Stars.bigBox (n : ℕ) (b : Bnd) : Domain n ℝ where
  min := fun _ => -5
  max := fun _ => 5
  lhs := fun _ => b
  rhs := fun _ => b
  size := fun _ => 10
  half := fun _ => 5

theorem Stars.pairMotion_motion (n : ℕ) (v1 t : ℝ) : Motion (pairMotion n v1) t where
  m := fun _ _ => rfl
  h := fun _ _ => rfl
  active := fun _ _ => rfl
  vel := by
    intro i k
    by_cases h : i = 1 ∧ k.val = 0
    · simp only [pairMotion, if_pos h]
      simpa using ((hasDerivAt_id t).const_mul v1).const_add 1
    · simp only [pairMotion, if_neg h]
      exact hasDerivAt_const _ _

theorem Stars.pairMotion_sep (n : ℕ) (b : Bnd) (v1 : ℝ) (k : Fin n) :
    sep (bigBox n b) (pairMotion n v1 0 0).r (pairMotion n v1 0 1).r k = if k.val = 0 then 1 else 0 := by
  by_cases h : k.val = 0 <;> by_cases hb : b = .periodic <;>
    norm_num [sep, nearestPeriodicVector, bigBox, pairMotion, h, hb]

theorem Stars.pairMotion_apart (n : ℕ) (b : Bnd) (v1 : ℝ) (i j : Fin 2) (h : i ≠ j) :
    Apart (bigBox (n + 1) b) (pairMotion (n + 1) v1 0 i).r (pairMotion (n + 1) v1 0 j).r := by
  have key : ∀ k, sep (bigBox (n + 1) b) (pairMotion (n + 1) v1 0 i).r (pairMotion (n + 1) v1 0 j).r k =
      if k.val = 0 then (if i = 0 then 1 else -1) else 0 := by
    intro k
    fin_cases i <;> fin_cases j
    · exact absurd rfl h
    · simpa using pairMotion_sep (n + 1) b v1 k
    · have := sep_swap (d := bigBox (n + 1) b) (fun k _ => by norm_num [bigBox])
        (pairMotion (n + 1) v1 0 0).r (pairMotion (n + 1) v1 0 1).r k
      rw [pairMotion_sep] at this
      simp only [Fin.mk_one, Fin.zero_eta] at this ⊢
      rw [this]
      by_cases hk : k.val = 0 <;> simp [hk]
    · exact absurd rfl h
  refine ⟨fun hz => ?_, fun k _ => ?_⟩
  · have := congrFun hz 0
    rw [key] at this
    by_cases hi : i = 0 <;> norm_num [hi] at this
  · simp only [pairMotion, bigBox]
    by_cases hi : i = 1 <;> by_cases hj : j = 1 <;> by_cases hk : k.val = 0 <;> norm_num [hi, hj, hk]

/-- the forces of the example are not trivial: in an open box star 0 is pulled with acceleration one -/
example : (directForces (bigBox 3 .open_) (clear (pairMotion 3 1 0)) 0).a 0 = 1 := by
  have hs : AllActive (pairMotion 3 1 0) := fun _ => rfl
  have hsep : sep (bigBox 3 .open_) (pairMotion 3 1 0 0).r (pairMotion 3 1 0 1).r =
      fun k => if k.val = 0 then 1 else 0 := funext (pairMotion_sep 3 .open_ 1)
  rw [direct_a hs, Fin.sum_univ_two, hsep]
  norm_num [newton, dot, Fin.sum_univ_three, pairMotion]

/-- the third-law theorems apply to it, in an open and in a periodic box -/
example (b : Bnd) (k : Fin 3) :
    ∑ i, (pairMotion 3 1 0 i).m * (directForces (bigBox 3 b) (clear (pairMotion 3 1 0)) i).a k = 0 :=
  C45_direct_no_net_force _ (fun _ _ => by norm_num [bigBox]) _ (fun _ => rfl) k

example (k l : Fin 3) : ∑ i, (pairMotion 3 1 0 i).m *
    ((pairMotion 3 1 0 i).r k * (smoothForces (m4Kernel 3) 0 (bigBox 3 .open_) (clear (pairMotion 3 1 0)) i).a l -
      (pairMotion 3 1 0 i).r l * (smoothForces (m4Kernel 3) 0 (bigBox 3 .open_) (clear (pairMotion 3 1 0)) i).a k) = 0 :=
  C45_smoothed_no_net_torque _ _ _ (fun k h => by cases h.1) _ (fun _ => rfl) k l

/-- so do the jerk theorems -/
example (b : Bnd) (i : Fin 2) (k : Fin 3) :
    HasDerivAt (fun τ => (directForces (bigBox 3 b) (clear (pairMotion 3 1 τ)) i).a k)
      ((directForces (bigBox 3 b) (clear (pairMotion 3 1 0)) i).adot k) 0 :=
  C45_direct_jerk _ _ 0 (pairMotion_motion 3 1 0) (pairMotion_apart 2 b 1) i k

/-- the M4 kernel meets the conditions of the smoothed theorem -/
example (b : Bnd) (i : Fin 2) (k : Fin 3) :
    HasDerivAt (fun τ => (smoothForces (m4Kernel 3) 0 (bigBox 3 b) (clear (pairMotion 3 1 τ)) i).a k)
      ((smoothForces (m4Kernel 3) 0 (bigBox 3 b) (clear (pairMotion 3 1 0)) i).adot k) 0 :=
  C45_smoothed_jerk _ (C30_m4_valid 3 (by norm_num)).continuous C31_m4_gravity _ _ 0 (pairMotion_motion 3 1 0)
    (fun _ => by norm_num [pairMotion]) (pairMotion_apart 2 b 1) i k

/-- two stars starting from rest, moved by their own attraction to second order: the energy theorem
applies at the start -/
noncomputable def Stars.fallMotion (a : Fin 2 → Vec 3 ℝ) (τ : ℝ) (i : Fin 2) : Star 3 :=
  { pairMotion 3 0 τ i with
    r := fun k => (pairMotion 3 0 τ i).r k + a i k * τ * τ / 2
    v := fun k => a i k * τ }

example : ∃ s : ℝ → Fin 2 → Star 3, Motion s 0 ∧
    (∀ i j, i ≠ j → Apart (bigBox 3 .open_) (s 0 i).r (s 0 j).r) ∧
    (∀ i k, HasDerivAt (fun τ => (s τ i).v k) ((directForces (bigBox 3 .open_) (clear (s 0)) i).a k) 0) ∧
    (directForces (bigBox 3 .open_) (clear (s 0)) 0).a 0 ≠ 0 := by
  let a : Fin 2 → Vec 3 ℝ := fun i k => (directForces (bigBox 3 .open_) (clear (pairMotion 3 0 0)) i).a k
  have e : ∀ i, (fallMotion a 0 i).r = (pairMotion 3 0 0 i).r := fun i => by funext k; simp [fallMotion]
  have ha : ∀ i k, (directForces (bigBox 3 .open_) (clear (fallMotion a 0)) i).a k = a i k := by
    intro i k
    have h1 : AllActive (fallMotion a 0) := fun _ => rfl
    have h2 : AllActive (pairMotion 3 0 0) := fun _ => rfl
    rw [direct_a h1]
    change _ = (directForces (bigBox 3 .open_) (clear (pairMotion 3 0 0)) i).a k
    rw [direct_a h2]
    simp only [e]
    rfl
  refine ⟨fallMotion a, ⟨fun _ _ => rfl, fun _ _ => rfl, fun _ _ => rfl, ?_⟩, ?_, ?_, ?_⟩
  · intro i k
    have h1 := (pairMotion_motion 3 0 0).vel i k
    have h2 := ((((hasDerivAt_id (0 : ℝ)).const_mul (a i k)).mul (hasDerivAt_id (0 : ℝ))).div_const 2)
    refine (h1.add h2).congr_deriv ?_
    simp [fallMotion, pairMotion]
  · intro i j h
    rw [e, e]; exact pairMotion_apart 2 .open_ 0 i j h
  · intro i k
    rw [ha]
    simpa [fallMotion] using (hasDerivAt_id (0 : ℝ)).const_mul (a i k)
  · rw [ha]
    have hs : AllActive (pairMotion 3 0 0) := fun _ => rfl
    have hsep : sep (bigBox 3 .open_) (pairMotion 3 0 0 0).r (pairMotion 3 0 0 1).r =
        fun k => if k.val = 0 then 1 else 0 := funext (pairMotion_sep 3 .open_ 0)
    simp only [a]
    rw [direct_a hs, Fin.sum_univ_two, hsep]
    norm_num [newton, dot, Fin.sum_univ_three, pairMotion]

/-! ### Where the code departs from the claim -/

/-- **C45 (negation, smoothed jerk in one dimension).** The smoothed jerk uses the kernel of the actual
dimension while the softened force is that of three dimensions: in one dimension it is not the derivative
of the acceleration. -/
theorem C45_smoothed_jerk_1d_fails : ∃ s : ℝ → Fin 2 → Star 1, Motion s 0 ∧ (∀ i, 0 < (s 0 i).h) ∧
    (∀ i j, i ≠ j → Apart (bigBox 1 .open_) (s 0 i).r (s 0 j).r) ∧
    ¬HasDerivAt (fun τ => (smoothForces (m4Kernel 1) 0 (bigBox 1 .open_) (clear (s τ)) 0).a 0)
      ((smoothForces (m4Kernel 1) 0 (bigBox 1 .open_) (clear (s 0)) 0).adot 0) 0 := by
  refine ⟨pairMotion 1 1, pairMotion_motion 1 1 0, fun _ => by norm_num [pairMotion],
    pairMotion_apart 0 .open_ 1, fun hbad => ?_⟩
  have hs : Motion (pairMotion 1 1) 0 := pairMotion_motion 1 1 0
  have hap := pairMotion_apart 0 .open_ 1 0 1 (by decide)
  have hsepv : sep (bigBox 1 .open_) (pairMotion 1 1 0 0).r (pairMotion 1 1 0 1).r = fun _ => 1 := by
    funext k
    rw [pairMotion_sep 1 .open_ 1 k, if_pos (by omega)]
  have hd1 : dot (fun _ : Fin 1 => (1 : ℝ)) (fun _ => 1) = 1 := by simp [dot]
  have e : (fun τ => (smoothForces (m4Kernel 1) 0 (bigBox 1 .open_) (clear (pairMotion 1 1 τ)) 0).a 0) = fun τ =>
      soft (m4Kernel 3) 1 (√(dot (sep (bigBox 1 .open_) (pairMotion 1 1 τ 0).r (pairMotion 1 1 τ 1).r)
        (sep (bigBox 1 .open_) (pairMotion 1 1 τ 0).r (pairMotion 1 1 τ 1).r))) *
        sep (bigBox 1 .open_) (pairMotion 1 1 τ 0).r (pairMotion 1 1 τ 1).r 0 := by
    funext τ
    rw [smooth_a (hs.active τ), Fin.sum_univ_two]
    have h01 : ¬((0 : Fin 2) = 1) := by decide
    simp only [if_true, if_neg h01, zero_add, add_zero, soft]
    simp only [pairMotion, invhmean, m4Kernel]
    norm_num
  have hsep := fun k => hasDerivAt_sep hap (hs.vel 0) (hs.vel 1) k
  have hpos : 0 < √(dot (sep (bigBox 1 .open_) (pairMotion 1 1 0 0).r (pairMotion 1 1 0 1).r)
      (sep (bigBox 1 .open_) (pairMotion 1 1 0 0).r (pairMotion 1 1 0 1).r)) := by
    rw [hsepv, hd1]; simp
  have hgood := hasDerivAt_central hsep hap.1 (hasDerivAt_soft
    (C30_m4_valid 3 (by norm_num)).continuous C31_m4_gravity (q := 1) one_pos hpos) 0
  rw [e] at hbad
  have := hbad.unique hgood
  rw [smoothForces, sumForces_adot (hs.active 0), Fin.sum_univ_two] at this
  have h01 : ¬((0 : Fin 2) = 1) := by decide
  obtain ⟨c1, c2, c3, c4⟩ := clear_keep (pairMotion 1 1 0) 0
  obtain ⟨d1, d2, d3, d4⟩ := clear_keep (pairMotion 1 1 0) 1
  simp only [if_true, if_neg h01, zero_add, smoothJerk, paux, drmag, soft, c1, c2, d1, d2, d3, c4, d4, hsepv,
    hd1, add_zero, Real.sqrt_one] at this
  simp only [pairMotion, invhmean, m4Kernel, dot, M4.w0, M4.wgrav, M4.kernnorm] at this
  norm_num at this
  have hpi := Real.pi_gt_three
  have h3 := Real.pi_pos.ne'
  field_simp at this
  nlinarith

/-- **C45 (star and gas, partial).** In an open box a star and a gas particle attract each other with
opposite forces. Missing: the code adds `small_number` to the squared distance on the gas side only
(rounding), and does not wrap the separation there (see below). -/
theorem C45_star_gas_partial (K : Kernel) (d : Domain n ℝ) (hd : ∀ k, ¬Per d k) (rs rg : Vec n ℝ)
    (hs hg ms mg : ℝ) (k : Fin n) :
    ms * starFromGas K d rs hs rg hg mg k + mg * gasFromStar K 0 rg hg rs hs ms k = 0 := by
  have e : sep d rs rg = fun k => -(rs k - rg k) := by
    funext k; rw [sep_open hd]; ring
  simp only [starFromGas, gasFromStar, paux, drmag, add_zero, e, dot_neg', invhmean_comm hg hs]
  ring

/-- a periodic box of size one -/
noncomputable def Stars.unitPeriodic : Domain 1 ℝ where
  min := fun _ => 0
  max := fun _ => 1
  lhs := fun _ => .periodic
  rhs := fun _ => .periodic
  size := fun _ => 1
  half := fun _ => 1 / 2

/-- **C45 (negation, star and gas in a periodic box).** The star sees the nearest image of the gas
particle, the gas particle the star itself: a star at 0.1 and gas at 0.9 are pulled the same way, and the
total momentum changes. -/
theorem C45_star_gas_periodic_fails : ∃ rs rg : Vec 1 ℝ, ∃ h : ℝ, 0 < h ∧
    starFromGas (m4Kernel 1) unitPeriodic rs h rg h 1 0 < 0 ∧ gasFromStar (m4Kernel 1) 0 rg h rs h 1 0 < 0 := by
  refine ⟨fun _ => 1 / 10, fun _ => 9 / 10, 1 / 100, by norm_num, ?_, ?_⟩
  · have e : sep unitPeriodic (fun _ => 1 / 10) (fun _ => 9 / 10) = fun _ : Fin 1 => -(1 / 5 : ℝ) := by
      funext k; norm_num [sep, nearestPeriodicVector, unitPeriodic]
    have hdot : dot (fun _ : Fin 1 => -(1 / 5 : ℝ)) (fun _ => -(1 / 5)) = (1 / 5) ^ 2 := by norm_num [dot]
    simp only [starFromGas, paux, drmag, e, hdot, invhmean, m4Kernel]
    rw [Real.sqrt_sq (by norm_num)]
    norm_num [M4.wgrav]
  · have hdot : dot (fun _ : Fin 1 => (1 / 10 : ℝ) - 9 / 10) (fun _ => 1 / 10 - 9 / 10) = (4 / 5) ^ 2 := by
      norm_num [dot]
    simp only [gasFromStar, hdot, invhmean, m4Kernel, add_zero]
    rw [Real.sqrt_sq (by norm_num)]
    norm_num [M4.wgrav]

end Gandalf
