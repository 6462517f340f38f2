import Verif.Proof.Dust
import Verif.Model.Leapfrog
import Verif.Prop.C30

/-!
# C57 – Dust drag is stable for any stopping time and conserves momentum, angular momentum and energy
-/

set_option autoImplicit false
set_option linter.unusedSectionVars false

namespace Gandalf

open Dust

variable {n N : ℕ}

/-! ### test particles -/

/-- **C57** (test particles, resolved branch). If the step is longer than a thousandth of the stopping time, the
velocity of the dust relative to the gas at the end of the kick is the exact solution of the equation of motion
`w' = -w/t_s + Δa`. -/
theorem C57_test_particle_exact {L : Law} {dt grho gsound ts : ℝ} {dv da a : Vec n ℝ} (hd : 0 < dt) (ht : 0 < ts)
    (hts : L grho 0 gsound = ts) (hbig : 1e-3 < dt / ts) (h : testAccel L dt grho gsound dv da = some a) (k : Fin n)
    (W : ℝ → ℝ) (h0 : W 0 = dv k) (hW : ∀ t, HasDerivAt W (-W t / ts + da k) t) :
    dv k + (da k + a k) * dt = W dt := by
  subst hts
  rw [testAccel_vel hd ht h, ode ht h0 hW, frac_big hd hbig]
  ring

/-- **C57** (test particles). For every step and every stopping time the error of the kick is below
`6e-14` of the distance to the terminal relative velocity `Δa t_s`. -/
theorem C57_test_particle_error {L : Law} {dt grho gsound ts : ℝ} {dv da a : Vec n ℝ} (hd : 0 < dt) (ht : 0 < ts)
    (hts : L grho 0 gsound = ts) (h : testAccel L dt grho gsound dv da = some a) (k : Fin n)
    (W : ℝ → ℝ) (h0 : W 0 = dv k) (hW : ∀ t, HasDerivAt W (-W t / ts + da k) t) :
    |dv k + (da k + a k) * dt - W dt| ≤ 6e-14 * |dv k - da k * ts| := by
  subst hts
  rw [testAccel_vel hd ht h, ode ht h0 hW]
  have e : dv k * (1 - frac dt (L grho 0 gsound)) + da k * L grho 0 gsound * frac dt (L grho 0 gsound) -
      (dv k * Real.exp (-(dt / L grho 0 gsound)) + da k * L grho 0 gsound * (1 - Real.exp (-(dt / L grho 0 gsound)))) =
      -((frac dt (L grho 0 gsound) - (1 - Real.exp (-(dt / L grho 0 gsound)))) * (dv k - da k * L grho 0 gsound)) := by
    ring
  rw [e, abs_neg, abs_mul]
  exact mul_le_mul_of_nonneg_right (frac_err hd ht) (abs_nonneg _)

/-- **C57** (test particles). However stiff the drag, the relative velocity stays between the one at the start of
the kick and the terminal one: the drag neither overshoots nor reverses it. -/
theorem C57_test_particle_bounded {L : Law} {dt grho gsound ts : ℝ} {dv da a : Vec n ℝ} (hd : 0 < dt) (ht : 0 < ts)
    (hts : L grho 0 gsound = ts) (h : testAccel L dt grho gsound dv da = some a) (k : Fin n) :
    ∃ f, 0 < f ∧ f < 1 ∧ dv k + (da k + a k) * dt = (1 - f) * dv k + f * (da k * ts) := by
  subst hts
  refine ⟨frac dt (L grho 0 gsound), frac_nonneg hd ht, frac_lt_one hd ht, ?_⟩
  rw [testAccel_vel hd ht h]
  ring

/-- the three laws that do not use the dust density give a positive stopping time, so the hypotheses hold -/
example (K rho cs : ℝ) (hK : 0 < K) (hr : 0 < rho) (hc : 0 < cs) :
    0 < fixedDrag K rho 0 cs ∧ 0 < densityDrag K rho 0 cs ∧ 0 < epsteinDrag K rho 0 cs := by
  refine ⟨?_, ?_, ?_⟩
  · unfold fixedDrag; positivity
  · unfold densityDrag; rw [add_zero]; positivity
  · unfold epsteinDrag epsteinNorm; rw [add_zero]; positivity

/-- a step of two stopping times with relative velocity 3 and relative acceleration 5 -/
example : ∃ a : Vec 1 ℝ, testAccel (fixedDrag 1) 2 1 1 (fun _ => 3) (fun _ => 5) = some a := by
  unfold testAccel fixedDrag
  simp

/-- **C57** (violated for one law). With the Laibe & Price law the stopping time of a test particle is zero,
whatever the gas: the assertion fails, and with assertions off the acceleration is a division by zero. -/
theorem C57_lp12_test_particle_fails (K dt grho gsound : ℝ) (dv da : Vec n ℝ) :
    testAccel (lp12Drag K) dt grho gsound dv da = none := by
  unfold testAccel lp12Drag
  simp

/-- **C57** (interpolation). The interpolated gas values are weighted means: they lie between any bounds of the
values of the neighbours. -/
theorem C57_interpolation_mean {hf lo hi : ℝ} (hhf : 0 < hf) {l : List (Gas n)} (hw : ∀ g ∈ l, 0 ≤ g.mw)
    (hpos : 0 < (l.map fun g => g.mw).sum) (f : Gas n → ℝ) (hl : ∀ g ∈ l, lo ≤ f g) (hh : ∀ g ∈ l, f g ≤ hi) :
    lo ≤ mean hf l f ∧ mean hf l f ≤ hi := by
  have e : mean hf l f = (l.map fun g => g.mw * f g).sum / (l.map fun g => g.mw).sum := by
    unfold mean
    have h1 := hpos.ne'
    have h2 := hhf.ne'
    field_simp
  rw [e, le_div_iff₀ hpos, div_le_iff₀ hpos, ← List.sum_map_mul_left, ← List.sum_map_mul_left]
  constructor
  · apply List.sum_le_sum
    intro g hg
    rw [mul_comm]
    exact mul_le_mul_of_nonneg_left (hl g hg) (hw g hg)
  · apply List.sum_le_sum
    intro g hg
    rw [mul_comm hi]
    exact mul_le_mul_of_nonneg_left (hh g hg) (hw g hg)

example : mean (n := 1) 2 [⟨1, 3, 0, 0⟩, ⟨3, 7, 0, 0⟩] (fun g => g.cs) = 6 := by
  unfold mean
  norm_num

/-! ### two fluids -/

namespace Dust

theorem sph_vdiff {sys : Fin N → SphP n} {dt : ℝ} (h : ∀ i, (sys i).dt = dt) (i j : Fin N) (k : Fin n) :
    (sphOps n).vdiff (sys j) (sys i) k = -(sphOps n).vdiff (sys i) (sys j) k := by
  simp only [sphOps, h]
  ring

theorem mfv_vdiff {sys : Fin N → MfvP n} (i j : Fin N) (k : Fin n) :
    (mfvOps n).vdiff (sys j) (sys i) k = -(mfvOps n).vdiff (sys i) (sys j) k := by
  simp only [mfvOps]
  ring

theorem updateSph_some {K : Kernel} {L : Law} {w dt dtn : ℝ} {nb : Lists n N} {sys sys' : Fin N → SphP n}
    (hdt : ∀ i, (sys i).dt = dt ∧ (sys i).dt_next = dtn) (h : updateSph K L w nb sys = some sys') :
    ∃ q, heat (sphOps n) K L (fun _ => dragTimestep w dt dtn) nb sys = some q ∧
      sys' = fun i => (sys i).update (accel (sphOps n) K L (fun _ => dragTimestep w dt dtn) nb sys i) (q i) := by
  have e : (fun i => dragTimestep w (sys i).dt (sys i).dt_next) = fun _ : Fin N => dragTimestep w dt dtn := by
    funext i
    rw [(hdt i).1, (hdt i).2]
  unfold updateSph at h
  simp only [e, Option.map_eq_some_iff] at h
  obtain ⟨q, hq, rfl⟩ := h
  exact ⟨q, hq, rfl⟩

theorem updateMfv_some {K : Kernel} {L : Law} {dt : ℝ} {nb : Lists n N} {sys sys' : Fin N → MfvP n}
    (hdt : ∀ i, (sys i).dt = dt) (h : updateMfv K L 1 nb sys = some sys') :
    ∃ q, heat (mfvOps n) K L (fun _ => dt) nb sys = some q ∧
      sys' = fun i => (sys i).update (accel (mfvOps n) K L (fun _ => dt) nb sys i) (q i) dt := by
  have e : (fun i => dragTimestep 1 (sys i).dt (sys i).dt_next) = fun _ : Fin N => dt := by
    funext i
    rw [hdt i]
    unfold dragTimestep
    ring
  unfold updateMfv at h
  simp only [e, Option.map_eq_some_iff] at h
  obtain ⟨q, hq, rfl⟩ := h
  refine ⟨q, hq, ?_⟩
  funext i
  rw [congrFun e i]

end Dust

/-- **C57** (momentum, SPH). With one global timestep the drag changes the total force by nothing, also with
periodic images, for every drag law and kernel. -/
theorem C57_momentum_sph {K : Kernel} {L : Law} {w dt dtn : ℝ} {S : Finset (Vec n ℝ)} {nb : Lists n N}
    {sys sys' : Fin N → SphP n} (hdt : ∀ i, (sys i).dt = dt ∧ (sys i).dt_next = dtn)
    (hg : ∀ i, Good (sphOps n) (sys i)) (hc : Complete (sphOps n) K S sys nb) (hS : Symm S)
    (h : updateSph K L w nb sys = some sys') (k : Fin n) :
    ∑ i, (sys' i).m * (sys' i).a k = ∑ i, (sys i).m * (sys i).a k := by
  obtain ⟨q, _, rfl⟩ := updateSph_some hdt h
  have hm := momentum (L := L) (dt := dragTimestep w dt dtn) hg hc hS (sph_vdiff fun i => (hdt i).1) k
  simp only [SphP.update, mul_add, Finset.sum_add_distrib]
  rw [show (∑ i, (sys i).m * accel (sphOps n) K L (fun _ => dragTimestep w dt dtn) nb sys i k) = 0 from hm, add_zero]

/-- **C57** (angular momentum, SPH). The drag exerts no total torque. -/
theorem C57_angular_momentum_sph {K : Kernel} {L : Law} {w dt dtn : ℝ} {nb : Lists n N}
    {sys sys' : Fin N → SphP n} (hdt : ∀ i, (sys i).dt = dt ∧ (sys i).dt_next = dtn)
    (hg : ∀ i, Good (sphOps n) (sys i)) (hc : Complete (sphOps n) K {0} sys nb)
    (h : updateSph K L w nb sys = some sys') (k l : Fin n) :
    ∑ i, (sys' i).m * ((sys' i).r k * (sys' i).a l - (sys' i).r l * (sys' i).a k) =
      ∑ i, (sys i).m * ((sys i).r k * (sys i).a l - (sys i).r l * (sys i).a k) := by
  obtain ⟨q, _, rfl⟩ := updateSph_some hdt h
  have hm := angular (L := L) (dt := dragTimestep w dt dtn) hg hc (sph_vdiff fun i => (hdt i).1) k l
  rw [← sub_eq_zero, ← Finset.sum_sub_distrib, ← hm]
  refine Finset.sum_congr rfl fun i _ => ?_
  simp only [SphP.update, sphOps]
  ring

/-- **C57** (energy, SPH). The kinetic energy at the end of the kick plus the heat put into the gas during it is
what it would be without drag. -/
theorem C57_energy_sph {K : Kernel} {L : Law} {w dt dtn : ℝ} {S : Finset (Vec n ℝ)} {nb : Lists n N}
    {sys sys' : Fin N → SphP n} (hdt : ∀ i, (sys i).dt = dt ∧ (sys i).dt_next = dtn)
    (hg : ∀ i, Good (sphOps n) (sys i)) (hc : Complete (sphOps n) K S sys nb)
    (h : updateSph K L w nb sys = some sys') :
    ∑ i, (kinetic (sphOps n) (dragTimestep w dt dtn) (sys' i) + (sys' i).m * (sys' i).dudt * dragTimestep w dt dtn) =
      ∑ i, (kinetic (sphOps n) (dragTimestep w dt dtn) (sys i) + (sys i).m * (sys i).dudt * dragTimestep w dt dtn) := by
  obtain ⟨q, hq, rfl⟩ := updateSph_some hdt h
  set T := dragTimestep w dt dtn
  have hs := heat_sum hg hq
  have hk : ∀ i, kinetic (sphOps n) T ((sys i).update (accel (sphOps n) K L (fun _ => T) nb sys i) (q i)) =
      kinetic (sphOps n) T (sys i) + T * ((sys i).m * dEk (sphOps n) T (sys i)
        (accel (sphOps n) K L (fun _ => T) nb sys i)) := by
    intro i
    exact kinetic_change (sphOps n) T (sys i) _
  have hu : ∀ i, ((sys i).update (accel (sphOps n) K L (fun _ => T) nb sys i) (q i)).dudt = (sys i).dudt + q i := by
    intro i
    simp only [SphP.update]
    cases hgas : (sys i).gas
    · rw [heat_dust hc hq i hgas]
      simp
    · simp
  have hs' : ∑ i, (sys i).m * q i = -∑ i, (sys i).m * dEk (sphOps n) T (sys i)
      (accel (sphOps n) K L (fun _ => T) nb sys i) := hs
  simp only [hk, hu]
  have : ∀ i, kinetic (sphOps n) T (sys i) + T * ((sys i).m * dEk (sphOps n) T (sys i)
        (accel (sphOps n) K L (fun _ => T) nb sys i)) +
      ((sys i).update (accel (sphOps n) K L (fun _ => T) nb sys i) (q i)).m * ((sys i).dudt + q i) * T =
      (kinetic (sphOps n) T (sys i) + (sys i).m * (sys i).dudt * T) +
      T * ((sys i).m * dEk (sphOps n) T (sys i) (accel (sphOps n) K L (fun _ => T) nb sys i)) +
      T * ((sys i).m * q i) := by
    intro i
    simp only [SphP.update]
    ring
  simp only [this, Finset.sum_add_distrib, ← Finset.mul_sum, hs']
  ring

/-- **C57** (which velocity, kick-drift-kick). The velocity whose kinetic energy `C57_energy_sph` balances is the one
the integrator gives the particle half-way through its next step: `b` is at the end of its step (the drag forces come
after the new step is assigned and before `EndTimestep`, SphSimulation.cpp:841-872), `p` its state
before the drag and `q` after it. -/
theorem C57_kick_kdk (b : Leap.Body n ℝ) (mm m' : ℤ) (t dtn : ℝ) (p q : SphP n) (acc : Vec n ℝ) (dudt : ℝ)
    (ht : t - b.tlast = b.dt) (hv : p.v = (Leap.kdkAdvance mm t b).v) (ha0 : p.a0 = b.a0)
    (hdt : p.dt = b.dt) (hdtn : p.dt_next = dtn) (hq : q = p.update acc dudt) :
    vend (sphOps n) (dragTimestep (1 / 2) p.dt p.dt_next) q =
      (Leap.kdkAdvance m' (t + dtn / 2) (Leap.sphKdkEnd mm t
        { Leap.kdkAdvance mm t b with a := q.a, dtNext := dtn, endts := true })).v := by
  subst hq
  funext k
  simp only [vend, sphOps, dragTimestep, SphP.update, Leap.kdkAdvance, Leap.sphKdkEnd, Leap.record, if_true, hv, ha0,
    hdt, hdtn, ht]
  ring

/-- **C57** (which velocity, drift-kick-drift). Here it is the velocity at the end of the present step: `b` is half-way
through its step, and its last acceleration is the recorded one. -/
theorem C57_kick_dkd (b : Leap.Body n ℝ) (mm m' : ℤ) (t : ℝ) (p q : SphP n) (acc : Vec n ℝ) (dudt : ℝ)
    (ht : t - b.tlast = b.dt / 2) (hm : mm - b.nlast < b.nstep) (hb : b.a = b.a0)
    (hv : p.v = (Leap.dkdAdvance mm t b).v) (ha0 : p.a0 = b.a0)
    (hdt : p.dt = b.dt) (hq : q = p.update acc dudt) :
    vend (sphOps n) (dragTimestep 1 p.dt p.dt_next) q =
      (Leap.dkdAdvance m' (b.tlast + b.dt) { Leap.dkdAdvance mm t b with a := q.a }).v := by
  subst hq
  funext k
  have e : (Leap.dkdAdvance mm t b).v = fun k => b.v0 k + b.a k * (t - b.tlast) := by
    unfold Leap.dkdAdvance; rw [if_pos hm]
  have e2 : ∀ (a : Vec n ℝ), (Leap.dkdAdvance m' (b.tlast + b.dt) { Leap.dkdAdvance mm t b with a := a }).v k =
      b.v0 k + a k * b.dt := by
    intro a
    have e3 : (Leap.dkdAdvance mm t b).v0 = b.v0 ∧ (Leap.dkdAdvance mm t b).tlast = b.tlast := by
      unfold Leap.dkdAdvance; rw [if_pos hm]; exact ⟨rfl, rfl⟩
    unfold Leap.dkdAdvance at e3 ⊢
    split_ifs <;> simp
  rw [e2]
  simp only [vend, sphOps, dragTimestep, SphP.update, hv, e, ha0, hdt, ht, hb]
  ring

/-- **C57** (which velocity difference). Together with `C57_kick_kdk` and `C57_kick_dkd`: the velocity difference the
drag starts from is the one that grows, without drag, to the difference of the velocities at the end of the kick. -/
theorem C57_kick_difference (p q : SphP n) (T : ℝ) (h : p.dt = q.dt) (k : Fin n) :
    (sphOps n).vdiff p q k + ((sphOps n).acc p k - (sphOps n).acc q k) * T =
      vend (sphOps n) T p k - vend (sphOps n) T q k := by
  simp only [vend, sphOps, h]
  ring

/-- **C57** (which velocity difference, meshless). -/
theorem C57_kick_difference_mfv (p q : MfvP n) (T : ℝ) (k : Fin n) :
    (mfvOps n).vdiff p q k + ((mfvOps n).acc p k - (mfvOps n).acc q k) * T =
      vend (mfvOps n) T p k - vend (mfvOps n) T q k := by
  simp only [vend, mfvOps]
  ring

/-- a particle of velocity 1 and acceleration 2 with a step of 1/2 and a next step of 1/4 -/
example : ∃ (b : Leap.Body 1 ℝ) (p : SphP 1), (1 / 2 : ℝ) - b.tlast = b.dt ∧ p.v = (Leap.kdkAdvance 4 (1 / 2) b).v ∧
    p.a0 = b.a0 ∧ p.dt = b.dt ∧ p.dt_next = 1 / 4 ∧ b.v0 = (fun _ => 1) ∧ b.a0 = fun _ => 2 :=
  ⟨⟨fun _ => 0, fun _ => 1, fun _ => 2, fun _ => 0, fun _ => 1, fun _ => 2, 0, 1 / 2, 0, 0, 4, false, false⟩,
    ⟨true, fun _ => 3 / 4, 1, 1, 1, 1, fun _ => 2, fun _ => 3, fun _ => 2, 1 / 2, 1 / 4, 0⟩, by norm_num, by
      funext k; simp [Leap.kdkAdvance]; norm_num, rfl, rfl, rfl, rfl, rfl⟩

/-- **C57** (momentum, meshless). -/
theorem C57_momentum_mfv {K : Kernel} {L : Law} {dt : ℝ} {S : Finset (Vec n ℝ)} {nb : Lists n N}
    {sys sys' : Fin N → MfvP n} (hdt : ∀ i, (sys i).dt = dt)
    (hg : ∀ i, Good (mfvOps n) (sys i)) (hc : Complete (mfvOps n) K S sys nb) (hS : Symm S)
    (h : updateMfv K L 1 nb sys = some sys') (k : Fin n) :
    ∑ i, (sys' i).dQ k = ∑ i, (sys i).dQ k := by
  obtain ⟨q, _, rfl⟩ := updateMfv_some hdt h
  have hm := momentum (L := L) (dt := dt) hg hc hS mfv_vdiff k
  simp only [MfvP.update, Finset.sum_add_distrib, ← Finset.sum_mul]
  rw [show (∑ i, (sys i).m * accel (mfvOps n) K L (fun _ => dt) nb sys i k) = 0 from hm, zero_mul, add_zero]

/-- **C57** (angular momentum, meshless), at the positions where the drag is evaluated. -/
theorem C57_angular_momentum_mfv {K : Kernel} {L : Law} {dt : ℝ} {nb : Lists n N}
    {sys sys' : Fin N → MfvP n} (hdt : ∀ i, (sys i).dt = dt)
    (hg : ∀ i, Good (mfvOps n) (sys i)) (hc : Complete (mfvOps n) K {0} sys nb)
    (h : updateMfv K L 1 nb sys = some sys') (k l : Fin n) :
    ∑ i, ((sys i).r k * (sys' i).dQ l - (sys i).r l * (sys' i).dQ k) =
      ∑ i, ((sys i).r k * (sys i).dQ l - (sys i).r l * (sys i).dQ k) := by
  obtain ⟨q, _, rfl⟩ := updateMfv_some hdt h
  have hm := angular (L := L) (dt := dt) hg hc mfv_vdiff k l
  rw [← sub_eq_zero, ← Finset.sum_sub_distrib, ← mul_zero dt, ← hm, Finset.mul_sum]
  refine Finset.sum_congr rfl fun i _ => ?_
  simp only [MfvP.update, mfvOps]
  ring

/-- **C57** (energy, meshless). The energy given to the gas is the kinetic energy lost by the dust. -/
theorem C57_energy_mfv {K : Kernel} {L : Law} {dt : ℝ} {S : Finset (Vec n ℝ)} {nb : Lists n N}
    {sys sys' : Fin N → MfvP n} (hdt : ∀ i, (sys i).dt = dt) (hd : 0 < dt) (hu : ∀ i, (sys i).dudt = 0)
    (hg : ∀ i, Good (mfvOps n) (sys i)) (hc : Complete (mfvOps n) K S sys nb)
    (h : updateMfv K L 1 nb sys = some sys') :
    ∑ i, (if (sys' i).gas then (sys' i).dE else kinetic (mfvOps n) dt (sys' i)) =
      ∑ i, (if (sys i).gas then (sys i).dE else kinetic (mfvOps n) dt (sys i)) := by
  obtain ⟨q, hq, rfl⟩ := updateMfv_some hdt h
  have hs : ∑ i, (sys i).m * q i = -∑ i, (sys i).m * dEk (mfvOps n) dt (sys i)
      (accel (mfvOps n) K L (fun _ => dt) nb sys i) := heat_sum hg hq
  have hk : ∀ i, kinetic (mfvOps n) dt ((sys i).update (accel (mfvOps n) K L (fun _ => dt) nb sys i) (q i) dt) =
      kinetic (mfvOps n) dt (sys i) + dt * ((sys i).m * dEk (mfvOps n) dt (sys i)
        (accel (mfvOps n) K L (fun _ => dt) nb sys i)) := by
    intro i
    refine Eq.trans ?_ (kinetic_change (mfvOps n) dt (sys i) _)
    have hm : (sys i).m ≠ 0 := (hg i).m.ne'
    have hpos : 0 < (sys i).dt := by rw [hdt]; exact hd
    simp only [kinetic, vend, mfvOps, MfvP.update, hdt i, if_pos hd]
    congr 1
    refine Finset.sum_congr rfl fun k _ => ?_
    have := hd.ne'
    congr 2
    field_simp
    ring
  have he : ∀ i, (if ((sys i).update (accel (mfvOps n) K L (fun _ => dt) nb sys i) (q i) dt).gas
      then ((sys i).update (accel (mfvOps n) K L (fun _ => dt) nb sys i) (q i) dt).dE
      else kinetic (mfvOps n) dt ((sys i).update (accel (mfvOps n) K L (fun _ => dt) nb sys i) (q i) dt)) =
      (if (sys i).gas then (sys i).dE else kinetic (mfvOps n) dt (sys i)) + dt * ((sys i).m * q i) +
      dt * ((sys i).m * dEk (mfvOps n) dt (sys i) (accel (mfvOps n) K L (fun _ => dt) nb sys i)) := by
    intro i
    cases hgas : (sys i).gas
    · rw [show ((sys i).update (accel (mfvOps n) K L (fun _ => dt) nb sys i) (q i) dt).gas = false from hgas, hk i,
        heat_dust hc hq i hgas]
      simp
    · rw [show ((sys i).update (accel (mfvOps n) K L (fun _ => dt) nb sys i) (q i) dt).gas = true from hgas]
      simp only [MfvP.update, hgas, if_true, hu, add_zero, dEk]
      ring
  simp only [he, Finset.sum_add_distrib, ← Finset.mul_sum, hs]
  ring

/-! a gas and a dust particle on a line -/

namespace Dust

/-- gas at 0, dust at `x`, mass 2 and 3 -/
noncomputable def pair (x : ℝ) (i : Fin 2) : SphP 1 :=
  if i = 0 then ⟨true, fun _ => 0, 2, 1, 1, 1, fun _ => 0, fun _ => 0, fun _ => 0, 1, 1, 0⟩
  else ⟨false, fun _ => x, 3, 1, 1, 0, fun _ => 5, fun _ => 0, fun _ => 0, 1, 1, 0⟩

/-- each is the neighbour of the other -/
def pairNb : Lists 1 2 := fun i => if i = 0 then [(1, 0)] else [(0, 0)]

theorem pair_good (x : ℝ) (i : Fin 2) : Good (sphOps 1) (pair x i) := by
  constructor <;> fin_cases i <;> simp [pair, sphOps]

theorem pair_complete (x : ℝ) : Complete (sphOps 1) (m4Kernel 1) {0} (pair x) pairNb := by
  constructor
  · intro i; fin_cases i <;> simp [pairNb]
  · intro i y hy; fin_cases i <;> simp_all [pairNb]
  · intro i y hy; fin_cases i <;> simp_all [pairNb, sphOps, pair]
  · intro i j s hs ho _
    rw [Finset.mem_singleton] at hs
    subst hs
    fin_cases i <;> fin_cases j <;> simp_all [pairNb, sphOps, pair]

theorem pair_norm (x : ℝ) : Dust.norm (sphOps 1) (m4Kernel 1) (pair x 1) (copies (sphOps 1) (pair x) 1 (pairNb 1)) =
    2 * (m4Kernel 1).wdrag |x| := by
  have e : mag (fun _ : Fin 1 => x) = |x| := by
    unfold mag dot
    simp [Real.sqrt_mul_self_eq_abs]
  simp [Dust.norm, copies, pairNb, pair, sphOps, wkern, kern, e]
  ring

theorem pair_update (x : ℝ) (hx : (m4Kernel 1).wdrag |x| ≠ 0) :
    ∃ sys', updateSph (m4Kernel 1) (fixedDrag 1) 0.5 pairNb (pair x) = some sys' := by
  unfold updateSph heat
  simp only [Option.map_eq_some_iff]
  rw [if_pos]
  · exact ⟨_, _, rfl, rfl⟩
  · intro j hj
    fin_cases j
    · simp [pair, sphOps] at hj
    · unfold spread
      rw [if_neg]
      · rfl
      · rintro ⟨_, h0⟩
        have := (pair_norm x).symm.trans h0
        exact hx (by linarith)

end Dust

/-- dust one smoothing length away from the gas and moving away from it -/
example : ∃ sys', updateSph (m4Kernel 1) (fixedDrag 1) 0.5 pairNb (pair 1) = some sys' := by
  apply pair_update
  norm_num [Kernel.wdrag, m4Kernel, M4.w0, M4.kernnorm, M4.kernnormdrag]

/-- **C57** (violated: heating). A dust particle at the position of its only gas neighbour: the kernel of the drag
vanishes there, the normalisation is zero, and the energy term divides zero by zero. -/
theorem C57_heating_undefined (L : Law) (w : ℝ) :
    updateSph (m4Kernel 1) L w pairNb (pair 0) = none := by
  unfold updateSph heat
  simp only [Option.map_eq_none_iff]
  rw [if_neg]
  intro h
  have := h 1 (by simp [pair, sphOps])
  unfold spread at this
  rw [if_pos] at this
  · simp at this
  · refine ⟨by simp [copies, pairNb], ?_⟩
    rw [pair_norm]
    simp [Kernel.wdrag]

/-- **C57** (violated: MPI). Only positive heating is sent back from the MPI ghosts: the heat taken from a ghost
(by dust that the gas accelerates) is lost. -/
theorem C57_mpi_cooling_lost (own : ℝ) (ghosts : List ℝ) :
    parentHeat own ghosts = own + ghosts.sum ↔ ∀ q ∈ ghosts, 0 ≤ q := by
  unfold parentHeat
  rw [add_right_inj]
  have key : ∀ l : List ℝ, (l.filterMap sendBack).sum = l.sum + (l.map fun q => max (-q) 0).sum := by
    intro l
    induction l with
    | nil => simp
    | cons a l ih =>
      by_cases h : 0 < a
      · rw [List.filterMap_cons_some (show sendBack a = some a by unfold sendBack; rw [if_pos h])]
        simp only [List.sum_cons, List.map_cons, ih]
        rw [max_eq_right (by linarith)]
        ring
      · rw [List.filterMap_cons_none (show sendBack a = none by unfold sendBack; rw [if_neg h])]
        simp only [List.sum_cons, List.map_cons, ih]
        rw [max_eq_left (by linarith)]
        ring
  rw [key]
  constructor
  · intro h q hq
    have h0 : (ghosts.map fun q => max (-q) 0).sum = 0 := by linarith
    have := List.all_zero_of_le_zero_le_of_sum_eq_zero (l := ghosts.map fun q => max (-q) 0) (by
      intro x hx
      rw [List.mem_map] at hx
      obtain ⟨y, _, rfl⟩ := hx
      exact le_max_right _ _) h0 (List.mem_map.mpr ⟨q, hq, rfl⟩)
    have h1 := le_max_left (-q) 0
    linarith
  · intro h
    rw [List.sum_eq_zero (l := ghosts.map fun q => max (-q) 0), add_zero]
    intro x hx
    rw [List.mem_map] at hx
    obtain ⟨y, hy, rfl⟩ := hx
    exact max_eq_right (by linarith [h y hy])

example : parentHeat 1 [2, -3] = 3 ∧ (1 : ℝ) + [(2 : ℝ), -3].sum = 0 := by
  constructor
  · simp only [parentHeat, List.filterMap_cons, sendBack]
    norm_num
  · norm_num

/-! ### position of meshless particles -/

/-- **C57** (violated: position). The drag routine of the meshless schemes moves a particle with a velocity that
contains the momentum change, not divided by the mass. The position is the one belonging to the new momentum
only if the mass is one, the momentum change vanishes, or the step does. -/
theorem C57_mfv_position (p : MfvP n) (acc : Vec n ℝ) (dudt dt : ℝ) (hm : p.m ≠ 0) (k : Fin n) :
    (p.update acc dudt dt).r k =
      p.r0 k + 0.5 * (p.v0 k + (p.v0 k + (p.update acc dudt dt).dQ k / p.m + p.a0 k * dt)) * dt ↔
    p.m = 1 ∨ (p.update acc dudt dt).dQ k = 0 ∨ dt = 0 := by
  simp only [MfvP.update]
  generalize p.dQ k + p.m * acc k * dt = Q
  have e : p.r0 k + 0.5 * (p.v0 k + (p.v0 k + Q + p.a0 k * dt)) * dt =
      p.r0 k + 0.5 * (p.v0 k + (p.v0 k + Q / p.m + p.a0 k * dt)) * dt ↔ (p.m - 1) * Q * dt = 0 := by
    constructor
    · intro h
      field_simp at h
      linear_combination 2 * h
    · intro h
      field_simp
      linear_combination 1 / 2 * h
  rw [e, mul_eq_zero, mul_eq_zero, sub_eq_zero, or_assoc]

/-- a dust particle of mass `1/2` slowed down from speed 1 to 0 during a step of length 1 should advance by `1/2`;
it advances by `3/4` -/
example : let p : MfvP 1 := ⟨false, 0, 0, 1 / 2, 1, 1, 0, fun _ => 1, fun _ => 1, 0, 0, 1 / 2, 0, 0, 1, 1, 0⟩
    (p.update (fun _ => -1) 0 1).dQ 0 / p.m + p.v0 0 = 0 ∧ (p.update (fun _ => -1) 0 1).r 0 = 3 / 4 := by
  simp only [MfvP.update]
  norm_num

/-! ### the neighbours of a test particle -/

/-- **C57** (neighbour copy). If the particle whose number is the number of active particles of the cell is alive,
and so are the particles listed, the buffers hold the listed particles. -/
theorem C57_copy_neighbours_partial {dead : ℕ → Bool} {nl : ℕ → ℕ} {Nactive Nneib : ℕ}
    (ha : dead Nactive = false) (hn : ∀ k < Nneib, dead (nl k) = false) :
    (copyNeibs dead nl Nactive Nneib).Nneib = Nneib ∧
    ∀ k < Nneib, (copyNeibs dead nl Nactive Nneib).slot k = some (nl k) :=
  loop_alive hn Nneib _ (by simp) rfl ha (by simp)

/-- **C57** (violated: neighbour copy). If that unrelated particle is dead, no neighbour is copied, and half of
the buffer entries left over from the cell before are used for the interpolation. -/
theorem C57_copy_neighbours_stale {dead : ℕ → Bool} {nl : ℕ → ℕ} {Nactive Nneib : ℕ} (ha : dead Nactive = true) :
    (copyNeibs dead nl Nactive Nneib).Nneib = Nneib / 2 ∧
    ∀ k, (copyNeibs dead nl Nactive Nneib).slot k = none := by
  have h := loop_dead (dead := dead) (nl := nl) Nneib ⟨0, Nactive, Nneib, fun _ => none⟩ ha
  refine ⟨?_, fun k => by unfold copyNeibs; rw [h.1]⟩
  have h2 := h.2 (by simp) (by simp)
  unfold copyNeibs
  rw [h2]
  simp only []
  omega

/-- particle 4 is dead and four particles of the cell are active -/
example : (copyNeibs (fun i => i == 4) (fun k => 10 + k) 4 6).Nneib = 3 ∧
    (copyNeibs (fun i => i == 4) (fun k => 10 + k) 4 6).slot 0 = none ∧
    (copyNeibs (fun i => i == 4) (fun k => 10 + k) 3 6).slot 5 = some 15 := by
  decide +kernel

/-- **C57** (violated: termination). If there is no gas particle at all, the loop over a cell with a dust particle
never ends. -/
theorem C57_no_gas_hangs {gather : ℝ → ℕ} {interp : ℝ → ℤ} (h : ∀ x, gather x = 0) (fuel : ℕ) (hmax : ℝ) :
    cellLoop gather interp fuel hmax = none := by
  induction fuel generalizing hmax with
  | zero => rfl
  | succ f ih =>
    simp only [cellLoop]
    rw [h, if_pos rfl, if_pos rfl]
    exact ih _

/-- with gas within a distance 1.1 the loop ends -/
example : cellLoop (fun h => if 1.1 ≤ h then 1 else 0) (fun _ => 1) 5 1 = some (1.05 * (1.05 * 1)) := by
  simp only [cellLoop]
  norm_num

end Gandalf
